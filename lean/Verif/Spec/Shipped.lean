import Verif.Spec.Files
import Verif.Spec.Doubles

/-!
# Specification of the printers that come with the package

The table of the printers, written down a second time, with the values in the units of the simulation.
-/

namespace PyGCD.Spec
open PyGCD

/-- A printer that comes with the package: feedrate in mm/s, acceleration in mm/s², jerk in mm/s, and the firmware whose
junction handling is used. -/
structure Stock where
  name : String
  feed : ℚ
  acc : ℚ
  jerk : ℚ
  firmware : Firmware

/-- The printers that come with the package. -/
def stock : List Stock :=
  [⟨"anisoprint_a4", 35, 1000, 10, .mka⟩, ⟨"prusa_mini", 35, 1250, 8, .marlinJerk⟩,
    ⟨"prusa_mini_klipper", 35, 2500, 8, .klipper⟩, ⟨"debugging", 85, 100, 8, .default⟩]

/-- Such a printer at the beginning: at the origin, with absolute coordinates. -/
noncomputable def Stock.printer (r : Stock) : Printer :=
  { place := fun _ => 0, zero := fun _ => 0, absXYZ := true, absE := true, feed := r.feed, acc := r.acc, jerk := r.jerk }

end PyGCD.Spec
