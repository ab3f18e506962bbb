import Verif.Model.Sim

/-!
# Double precision

Python's `float` and numpy's `float64` are IEEE 754 binary64 numbers, rounded to nearest, ties to even. This file
makes them a number type `K` for the model: a number is a rational, and every operation is the exact operation
followed by rounding to 53 significant bits.

Simplifications: the range of exponents is unbounded (no overflow, no subnormal numbers), there are no infinities,
no NaN and no negative zero. `x / 0` and the root of a negative number are `0` here; the examples in
`Verif/Props/Doubles.lean` do neither. Sums of products in `numpy.linalg.norm` are evaluated from the left without
fused multiply-add.
-/

namespace PyGCD

/-- `2 ^ s`. -/
def pow2 : Int → Rat
  | .ofNat k => ((2 ^ k : Nat) : Rat)
  | .negSucc k => mkRat 1 (2 ^ (k + 1))

/-- The exponent of the leading bit of a positive rational: `2 ^ e ≤ x < 2 ^ (e + 1)`. -/
def leadExp (x : Rat) : Int :=
  let e : Int := (x.num.natAbs.log2 : Int) - (x.den.log2 : Int)
  if x < pow2 e then e - 1 else e

/-- Rounding to the nearest integer, ties to even. -/
def roundEven (q : Rat) : Int :=
  let f := q.floor
  let r := q - f
  if r < mkRat 1 2 then f else if mkRat 1 2 < r then f + 1 else if f % 2 = 0 then f else f + 1

/-- Rounding to 53 significant bits, to nearest, ties to even. -/
def rnd (x : Rat) : Rat :=
  if x = 0 then 0
  else
    let s := leadExp (if x < 0 then -x else x) - 52
    roundEven (x * pow2 (-s)) * pow2 s

/-- The integer square root, bit by bit: the largest `r' ≥ r` with `r' - r < 2 ^ i` and `r' * r' ≤ n`. -/
def isqrtLoop (n : Nat) : Nat → Nat → Nat
  | 0, r => r
  | i + 1, r =>
    let r' := r + 2 ^ i
    if r' * r' ≤ n then isqrtLoop n i r' else isqrtLoop n i r

/-- The correctly rounded square root. `r` has at least 54 bits, so that `r + 1 / 2` rounds like the irrational
root. -/
def rndSqrt (x : Rat) : Rat :=
  if x ≤ 0 then 0
  else
    let k : Int := 56 - leadExp x / 2
    let y := x * pow2 (2 * k)
    let n := y.floor.toNat
    let r := isqrtLoop n 60 0
    if ((r * r : Nat) : Rat) = y then rnd (r * pow2 (-k)) else rnd ((r + mkRat 1 2) * pow2 (-k))

/-- A binary64 number. -/
structure Dbl where
  val : Rat
  deriving DecidableEq

namespace Dbl

instance : Add Dbl := ⟨fun a b => ⟨rnd (a.val + b.val)⟩⟩
instance : Sub Dbl := ⟨fun a b => ⟨rnd (a.val - b.val)⟩⟩
instance : Mul Dbl := ⟨fun a b => ⟨rnd (a.val * b.val)⟩⟩
instance : Div Dbl := ⟨fun a b => ⟨rnd (a.val / b.val)⟩⟩
instance : Neg Dbl := ⟨fun a => ⟨-a.val⟩⟩
instance : LT Dbl := ⟨fun a b => a.val < b.val⟩
instance : LE Dbl := ⟨fun a b => a.val ≤ b.val⟩
instance : DecidableLT Dbl := fun a b => inferInstanceAs (Decidable (a.val < b.val))
instance : DecidableLE Dbl := fun a b => inferInstanceAs (Decidable (a.val ≤ b.val))
instance (n : Nat) : OfNat Dbl n := ⟨⟨rnd n⟩⟩

/-- Decimal literals. -/
instance : OfScientific Dbl :=
  ⟨fun m neg e => ⟨rnd (if neg then mkRat m (10 ^ e) else ((m * 10 ^ e : Nat) : Rat))⟩⟩

/-- The Taylor polynomial of the sine of degree `2 n - 1`, Horner's scheme from term `k` on. -/
def sinPoly (x : Rat) : Nat → Nat → Rat
  | 0, _ => 0
  | n + 1, k => 1 - x * x * mkRat 1 ((2 * k + 2) * (2 * k + 3)) * sinPoly x n (k + 1)

/-- The sine is the rounded Taylor polynomial of degree 39; for the two arguments in junction_handling.py:118-121
its truncation error is below `1e-40`. `pi` is the double nearest to `π`. -/
instance : PyMath Dbl where
  sqrt a := ⟨rndSqrt a.val⟩
  sin a := ⟨rnd (a.val * sinPoly a.val 20 0)⟩
  pi := ⟨mkRat 884279719003555 (2 ^ 48)⟩

end Dbl
end PyGCD
