import Verif.Spec.Idle
import Verif.Spec.Cuts
import Verif.Model.Junction

/-!
# Specification of pairs of G-code files whose prints are compared

Everything is about what the files make the printer do (`Printer.doings`), however they say it.
-/

namespace PyGCD.Spec
open PyGCD

/-- The second printer is asked for the same with no lower settings: same place, same wait, and no lower feedrate,
acceleration and jerk. With `marlin_jerk` and `MKA` the feedrate is the same; jerk zero means no limit with `marlin_jerk`, so
it stays zero. A feedrate of zero stays zero. -/
structure Quicker (fw : Firmware) (x x' : Doing) : Prop where
  place : x'.place = x.place
  wait : x'.wait = x.wait
  feed : x.feed ≤ x'.feed
  acc : x.acc ≤ x'.acc
  jerk : x.jerk ≤ x'.jerk
  sameFeed : fw = .marlinJerk ∨ fw = .mka → x'.feed = x.feed
  unlimited : fw = .marlinJerk → x.jerk = 0 → x'.jerk = 0
  zeroFeed : 0 < x'.feed → 0 < x.feed

/-- The second list is the first one with some of its straight travel moves written as several, with the filament in
proportion; the printer is at `p` before. -/
inductive InPieces : Vec4 ℝ → List Doing → List Doing → Prop
  | nil (p) : InPieces p [] []
  | keep {p x l l'} : InPieces x.place l l' → InPieces p (x :: l) (x :: l')
  | cut {p x l l' s} : ((x.place.sub p).norm3 ≠ 0) → x.wait = none → 0 < s → s < 1 →
      InPieces (p.add ((x.place.sub p).mul s)) (x :: l) l' →
      InPieces p (x :: l) (⟨p.add ((x.place.sub p).mul s), x.feed, x.acc, x.jerk, none⟩ :: l')

/-- All moves travel: none moves the filament alone. The printer is at `p` before. -/
def AllTravel : Vec4 ℝ → List Doing → Prop
  | _, [] => True
  | p, x :: l => (x.wait = none → (x.place.sub p).norm3 ≠ 0) ∧ AllTravel x.place l

/-- How much the planner's tolerance of `1e-12` mm/s at each junction may matter for the print time. -/
noncomputable def doingsSlack (l : List Doing) : ℝ :=
  7e-12 * (l.length + 1) * (1 + (l.map fun x => 1 / x.acc).sum)

/-- The second printer is in the same place and takes coordinates in the same way, with no lower settings: see `Quicker`. -/
structure Abler (fw : Firmware) (q q' : Printer) : Prop where
  place : q'.place = q.place
  zero : q'.zero = q.zero
  absXYZ : q'.absXYZ = q.absXYZ
  absE : q'.absE = q.absE
  feed : q.feed ≤ q'.feed
  acc : q.acc ≤ q'.acc
  jerk : q.jerk ≤ q'.jerk
  sameFeed : fw = .marlinJerk ∨ fw = .mka → q'.feed = q.feed
  unlimited : fw = .marlinJerk → q.jerk = 0 → q'.jerk = 0
  zeroFeed : 0 < q'.feed → 0 < q.feed

end PyGCD.Spec
