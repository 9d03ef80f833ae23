/-!
# Model of `technology/sidb_charge_state.hpp`

All four charge states, including the one of empty cells.
-/
namespace Verif.ChargeText

/-- `sidb_charge_state`, sidb_charge_state.hpp:19-25. -/
inductive State
  | negative
  | neutral
  | positive
  | none
  deriving DecidableEq

/-- `sidb_charge_states_for_base_number`, sidb_charge_state.hpp:29-46. -/
def statesForBase (base : Nat) : List State :=
  if base = 2 then [.negative, .neutral] else [.negative, .neutral, .positive]

/-- `charge_state_to_sign`, sidb_charge_state.hpp:53-70. -/
def toSign : State → Int
  | .negative => -1
  | .positive => 1
  | _ => 0

/-- `sign_to_charge_state`, sidb_charge_state.hpp:77-98. -/
def ofSign (sg : Int) : State :=
  if sg = -1 then .negative else if sg = 0 then .neutral else if sg = 1 then .positive else .none

/-- `charge_configuration_to_string`, sidb_charge_state.hpp:105-145. -/
def text : List State → List Char
  | [] => []
  | .none :: rest => text rest
  | .negative :: rest => '-' :: text rest
  | .neutral :: rest => '0' :: text rest
  | .positive :: rest => '+' :: text rest

end Verif.ChargeText
