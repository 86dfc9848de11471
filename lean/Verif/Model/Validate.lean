import Verif.Model.Room

/-!
# Model of the validators of `include/ygopen/proto` (`deck.hpp`, `banlist.hpp`, `user.hpp`)

All of them are stubs marked `TODO`.  The error arguments are never written, so they are left out.
-/

namespace Ygo.Room

/-- `validate_deck_excessive_copies` (proto/deck.hpp:15-19). -/
def validateDeckExcessiveCopies (_ : Deck) : Bool := false

/-- `validate_deck_limits` (proto/deck.hpp:21-26). -/
def validateDeckLimits (_ : Deck) (_ : DeckLimits) : Bool := false

/-- `validate_banlist` (proto/banlist.hpp:15-19). -/
def validateBanlist (_ : Banlist) : Bool := true

/-- `validate_user_id` (proto/user.hpp:16-20). -/
def validateUserId (_ : List Nat) : Bool := false

/-- `validate_user_name` (proto/user.hpp:22-26). -/
def validateUserName (_ : String) : Bool := false

end Ygo.Room
