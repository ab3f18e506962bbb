import Verif.Spec.Programs
import Verif.Proofs.RealLemmas

/-!
# Specification of scaled programs: other units of length and time
-/

namespace PyGCD.Spec
open PyGCD

/-- The state with all lengths `k` times as large and everything `r` times as fast: feedrate and jerk are
lengths per time, the acceleration is a length per time squared, a pause is a time. -/
noncomputable def scaled (k r : ℝ) (s : PState ℝ) : PState ℝ :=
  { position := s.position.mul k, speed := s.speed * (k * r), pAcc := s.pAcc * (k * r ^ 2), jerk := s.jerk * (k * r),
    pause := s.pause.map (· / r), layer := s.layer }

end PyGCD.Spec
