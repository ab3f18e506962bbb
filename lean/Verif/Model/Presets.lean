import Verif.Model.Setup

/-!
# The printer presets that come with the package

Models `/repo/pyGCodeDecode/data/default_printer_presets.yaml` lines 3-61, and
`/repo/pyGCodeDecode/examples/data/printer_presets.yaml`, which has the same content. Numbers are written down as they
stand in the file; how they are read (real numbers, doubles) is a parameter.
-/

namespace PyGCD

/-- data/default_printer_presets.yaml:3-16. -/
def presetAnisoprint : Dict (SVal Rat) :=
  [("nozzle_diam", .num (4 / 10)), ("filament_diam", .num (175 / 100)), ("p_vel", .num 35), ("p_acc", .num 1000),
    ("jerk", .num 10), ("vX", .num 180), ("vY", .num 180), ("vZ", .num 30), ("vE", .num 33), ("firmware", .text "MKA")]

/-- data/default_printer_presets.yaml:18-31. -/
def presetPrusaMini : Dict (SVal Rat) :=
  [("nozzle_diam", .num (4 / 10)), ("filament_diam", .num (175 / 100)), ("p_vel", .num 35), ("p_acc", .num 1250),
    ("jerk", .num 8), ("vX", .num 180), ("vY", .num 180), ("vZ", .num 12), ("vE", .num 80),
    ("firmware", .text "marlin_jerk")]

/-- data/default_printer_presets.yaml:33-46. -/
def presetPrusaMiniKlipper : Dict (SVal Rat) :=
  [("nozzle_diam", .num (4 / 10)), ("filament_diam", .num (175 / 100)), ("p_vel", .num 35), ("p_acc", .num 2500),
    ("jerk", .num 8), ("vX", .num 180), ("vY", .num 180), ("vZ", .num 12), ("vE", .num 80), ("firmware", .text "klipper")]

/-- data/default_printer_presets.yaml:48-61. The entry for the firmware is empty. -/
def presetDebugging : Dict (SVal Rat) :=
  [("nozzle_diam", .num (4 / 10)), ("filament_diam", .num (175 / 100)), ("p_vel", .num 85), ("p_acc", .num 100),
    ("jerk", .num 8), ("vX", .num 180), ("vY", .num 180), ("vZ", .num 12), ("vE", .num 80), ("firmware", .null)]

/-- A preset with its numbers read by `f`. -/
def readPreset {K : Type} (f : Rat → K) (d : Dict (SVal Rat)) : Dict (SVal K) :=
  d.map fun p => (p.1, match p.2 with
    | .num v => .num (f v)
    | .text s => .text s
    | .null => .null)

/-- data/default_printer_presets.yaml. -/
def shippedPresets {K : Type} (f : Rat → K) : Dict (Dict (SVal K)) :=
  [("anisoprint_a4", readPreset f presetAnisoprint), ("prusa_mini", readPreset f presetPrusaMini),
    ("prusa_mini_klipper", readPreset f presetPrusaMiniKlipper), ("debugging", readPreset f presetDebugging)]

/-- examples/benchy.py:32-43: the setup of the example. -/
def benchySetup {K : Type} [OfNat K 0] [OfNat K 1] [OfNat K 1000] [OfScientific K] [Mul K] (f : Rat → K) :
    Except PyErr (Setup K) := do
  let s ← Setup.create (shippedPresets f) (some "prusa_mini") (some "LAYER_CHANGE")
  s.setInitialPosition (.dict [("X", 0), ("Y", 0), ("Z", 0), ("E", 0)]) (some "SImm")

end PyGCD
