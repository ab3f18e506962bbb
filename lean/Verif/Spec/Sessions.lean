import Verif.Spec.Setups

/-!
# Specification of a simulation object's life: a book of its calls
-/

namespace PyGCD.Spec
open PyGCD

/-- A call on a simulation object, or on the setup object it was made from. -/
inductive SimOp where
  | values (t : ℝ) (u : Option String)
  | width (t h dia : ℝ)
  | refresh (new : Option (List (PState ℝ)))
  | onSetup (op : SetupOp)

/-- The calls only use well-formed dictionaries, and lists of states satisfying `ok`. -/
def SimOp.WellFormed (ok : List (PState ℝ) → Prop) : SimOp → Prop
  | .refresh (some l) => ok l
  | .onSetup op => op.WellFormed
  | _ => True

/-- The call does not name the firmware. -/
def SimOp.KeepsFirmware : SimOp → Prop
  | .onSetup (.setProps props) => props.lookup "firmware" = none
  | _ => True

/-- Is it a call of `refresh` with a new list? -/
def SimOp.newStates : SimOp → Option (List (PState ℝ))
  | .refresh new => new
  | _ => none

/-- The time a query asks for. -/
def SimOp.asks : SimOp → Option ℝ
  | .values t _ => some t
  | .width t _ _ => some t
  | _ => none

/-- Some query asks for a time before the end `T`, and none after it asks for a time behind the end. -/
def Primed (T : ℝ) (ops : List SimOp) : Prop :=
  ∃ a q b t, ops = a ++ q :: b ∧ q.asks = some t ∧ 0 ≤ t ∧ t < T ∧ ∀ r ∈ b, ∀ t', r.asks = some t' → t' ≤ T

/-- What is remembered: the setup's book, the current states, and the states and firmware entry of the last
planning. -/
structure SimBook where
  setup : Book
  states : List (PState ℝ)
  planned : List (PState ℝ)
  firmware : Option (SVal ℝ)

/-- The bookkeeping of one call for a simulation of printer `p`. -/
noncomputable def SimBook.note (presets : Dict (Dict (SVal ℝ))) (cue : Option String) (p : String) (bk : SimBook) :
    SimOp → SimBook
  | .refresh new =>
    { bk with states := new.getD bk.states, planned := new.getD bk.states,
              firmware := bk.setup.wanted presets cue p "firmware" }
  | .onSetup op => { bk with setup := bk.setup.note presets op }
  | _ => bk

end PyGCD.Spec
