/-
Model of `/repo/src/wfmath/probability.cpp`: factorials, the Gamma function, Gaussian and Poisson distributions.

`FloatT` is `double`, with exact real arithmetic; `exp`, `log`, `sin` and the numeric constants of const.h 83-138 (pi, the square roots, the
logarithms) are exact. The literal coefficients are the rational numbers written in the code. `none` is a failed assertion, or a loop that
never ends. The wrap-around of `n + 1` and `step + 1` at the largest `unsigned int` is not modelled.
-/
import Verif.Model.Const
import Mathlib.Analysis.SpecialFunctions.Trigonometric.Basic
import Mathlib.Analysis.SpecialFunctions.Log.Basic

namespace WFMath.Prob

/-- `std::numeric_limits<double>::epsilon()`. -/
noncomputable def machEps : ℝ := 2⁻¹ ^ 52
/-- `std::numeric_limits<double>::min()`. -/
noncomputable def minDouble : ℝ := 2⁻¹ ^ 1022

/-- probability.cpp 48 `GammaCutoff`. -/
def gammaCutoff : Nat := 10

/-- probability.cpp 148-149 and 164-165: `while(--n > 1) ans *= n`. -/
noncomputable def facLoop : Nat → ℝ → ℝ
  | 0, ans => ans -- not reached: `n` is at least 2 at the start
  | n + 1, ans => if n > 1 then facLoop n (ans * (n : ℝ)) else ans

/-- probability.cpp 205-212: `while(z < GammaCutoff) shift *= z++`; the final `z` and `shift`. -/
noncomputable def shiftLoop (z shift : ℝ) : ℝ × ℝ :=
  if _h : z < (gammaCutoff : ℝ) then shiftLoop (z + 1) (shift * z) else (z, shift)
termination_by ⌈(gammaCutoff : ℝ) - z⌉₊
decreasing_by
  have h1 : (gammaCutoff : ℝ) - z = ((gammaCutoff : ℝ) - (z + 1)) + 1 := by ring
  rw [h1]
  by_cases h2 : (gammaCutoff : ℝ) - (z + 1) ≤ 0
  · rw [Nat.ceil_eq_zero.2 h2, Nat.ceil_pos]
    linarith
  · rw [Nat.ceil_add_one (le_of_not_ge h2)]
    exact Nat.lt_succ_self _

/-- probability.cpp 224-227 `coeffs`. -/
noncomputable def coeffs : List ℝ :=
  [1 / 12, -1 / 360, 1 / 1260, -1 / 1620, 5 / 5940, -691 / 360360, 7 / 1092, -3617 / 122400, 43867 / 244188, -174661 / 125400, 854513 / 63756]

/-- probability.cpp 235-245: the loop over the coefficients left. Running out of them is the failed assertion. -/
noncomputable def corrLoop (zm2 small : ℝ) : List ℝ → ℝ → ℝ → Option ℝ
  | [], _, _ => none
  | c :: cs, zp, ans => if |c * zp| < small then some (ans + c * zp) else corrLoop zm2 small cs (zp * zm2) (ans + c * zp)

/-- probability.cpp 219-221: the leading part of Stirling's formula. -/
noncomputable def stirling (z logShift : ℝ) : ℝ := (z - 1 / 2) * Real.log z - logShift - z + (Real.log Real.pi + Real.log 2) / 2

/-- probability.cpp 219-247, given `z` and `log_shift`. -/
noncomputable def logGammaEnd (z logShift : ℝ) : Option ℝ :=
  let ans := stirling z logShift
  corrLoop (1 / z * (1 / z)) (|ans| * machEps) coeffs (1 / z) ans

/-- probability.cpp 197-247: `LogGamma` for `z ≥ 0.5`. -/
noncomputable def logGammaHigh (z : ℝ) : Option ℝ :=
  if z = 1 / 2 then some (Real.log Real.pi / 2)
  else if z = 1 ∨ z = 2 then some 0
  else if z < (gammaCutoff : ℝ) then logGammaEnd (shiftLoop z 1).1 (Real.log |(shiftLoop z 1).2|)
  else logGammaEnd z 0

/-- probability.cpp 183-248 `LogGamma`. The argument of the inner call is above 0.5. At the poles `log(0)` is minus infinity in the code; the
theorems exclude them. -/
noncomputable def logGamma (z : ℝ) : Option ℝ :=
  if z < 1 / 2 then (logGammaHigh (1 - z)).map fun l => Real.log Real.pi - l - Real.log |Real.sin (Real.pi * z)|
  else logGammaHigh z

/-- probability.cpp 172-181 `Gamma`. -/
noncomputable def gamma (z : ℝ) : Option ℝ :=
  if z ≥ 1 / 2 then (logGamma z).map Real.exp
  else (logGamma (1 - z)).map fun l => Real.pi * Real.exp (-l) / Real.sin (Real.pi * z)

/-- probability.cpp 140-154 `Factorial`. -/
noncomputable def factorial (n : Nat) : Option ℝ :=
  if n = 0 ∨ n = 1 then some 1
  else if n < gammaCutoff then some (facLoop n n)
  else (logGamma ((n + 1 : Nat) : ℝ)).map Real.exp

/-- probability.cpp 156-170 `LogFactorial`. -/
noncomputable def logFactorial (n : Nat) : Option ℝ :=
  if n = 0 ∨ n = 1 then some 0
  else if n < gammaCutoff then some (Real.log (facLoop n n))
  else logGamma ((n + 1 : Nat) : ℝ)

/-- probability.cpp 77-87 `Gaussian`. -/
noncomputable def gaussian (mean stddev val : ℝ) : Option ℝ :=
  if stddev = 0 then none
  else
    let diff := (mean - val) / stddev
    some (Real.exp (-(diff * diff) / 2) / (|stddev| * (√Real.pi * √2)))

/-- probability.cpp 119-138 `LogPoisson`. -/
noncomputable def logPoisson (mean : ℝ) (step : Nat) : Option ℝ :=
  if ¬ mean > 0 then none
  else if step = 0 then some (-mean)
  else (logFactorial step).bind fun lf =>
    let first := (step : ℝ) * Real.log mean
    let second := mean + lf
    if ¬ second > 0 then none
    else if ¬ first - second < 0 then none
    else some (first - second)

/-- probability.cpp 108-117 `Poisson`. -/
noncomputable def poisson (mean : ℝ) (step : Nat) : Option ℝ :=
  if ¬ mean ≥ 0 then none
  else if mean = 0 then some (if step = 0 then 1 else 0)
  else (logPoisson mean step).map Real.exp

/-- The result of a loop: `f k` is what it has returned within `k` rounds. -/
noncomputable def eventually {α : Type} (f : Nat → Option α) : Option α :=
  open Classical in if h : ∃ k, (f k).isSome then f (Nat.find h) else none

/-- probability.cpp 279-282: at most so many rounds of the power series loop. -/
noncomputable def seriesLoop (z : ℝ) : Nat → ℝ → ℝ → ℝ → Option ℝ
  | 0, _, _, _ => none
  | k + 1, term, dividend, ans =>
    if |term / ans| > machEps then
      let dividend' := dividend + 1
      let term' := term * (z / dividend')
      seriesLoop z k term' dividend' (ans + term')
    else some ans
/-- probability.cpp 268-285 `IncompleteGammaNoPrefactor`. -/
noncomputable def incGammaSeries (a z : ℝ) : Option ℝ :=
  if ¬ (z ≤ a + 1 ∧ z > 0 ∧ a > 0) then none else eventually fun k => seriesLoop z k 1 a 1

/-- The variables of the loop 334-365. -/
structure FracState where
  aLast : ℝ
  bLast : ℝ
  aNext : ℝ
  bNext : ℝ
  term : ℝ
  bContrib : ℝ
  nextZero : Bool

/-- probability.cpp 314-332: the variables before the loop. -/
noncomputable def fracStart (a z : ℝ) : FracState :=
  let b := z + 1 - a
  if |b| ≤ minDouble * 1000 then ⟨0, 1, 1, b, 1, b, true⟩ else ⟨0, 1 / b, 1 / b, 1, 1, b, false⟩

/-- probability.cpp 334-365: one round; the result, or the variables for the next round. -/
noncomputable def fracStep (a : ℝ) (s : FracState) : ℝ ⊕ FracState :=
  let aContrib := s.term * (a - s.term)
  let bContrib := s.bContrib + 2
  let aNext := bContrib * s.aNext + aContrib * s.aLast
  let bNext := bContrib * s.bNext + aContrib * s.bLast
  let zero := decide (|bNext| ≤ |aNext| * (minDouble * 1000))
  if zero then .inr ⟨s.aNext, s.bNext, aNext, bNext, s.term + 1, bContrib, true⟩
  else if s.nextZero = false ∧ |aNext / bNext - s.aNext| < |s.aNext| * machEps then .inl (aNext / bNext)
  else .inr ⟨s.aNext / bNext, s.bNext / bNext, aNext / bNext, 1, s.term + 1, bContrib, false⟩

/-- At most so many rounds of the loop 334-365. -/
noncomputable def fracLoop (a : ℝ) : Nat → FracState → Option ℝ
  | 0, _ => none
  | k + 1, s => match fracStep a s with
    | .inl r => some r
    | .inr s' => fracLoop a k s'
/-- probability.cpp 305-366 `IncompleteGammaComplementNoPrefactor`. -/
noncomputable def incGammaFrac (a z : ℝ) : Option ℝ :=
  if ¬ (z ≥ a + 1 ∧ a > 0) then none else eventually fun k => fracLoop a k (fracStart a z)

/-- probability.cpp 263-265: the part of `IncompleteGamma` for `z ≤ a + 1`. -/
noncomputable def incGammaLow (a z : ℝ) : Option ℝ :=
  (logGamma a).bind fun l => (incGammaSeries a z).map fun s => s * Real.exp (a * (Real.log z + 1) - z - l)
/-- probability.cpp 300-302: the part of `IncompleteGammaComplement` for `z ≥ a + 1`. -/
noncomputable def incGammaHigh (a z : ℝ) : Option ℝ :=
  (logGamma a).bind fun l => (incGammaFrac a z).map fun s => s * Real.exp (a * Real.log z - z - l)

/-- probability.cpp 250-266 `IncompleteGamma`. The mutual recursion with `IncompleteGammaComplement` goes one call deep. -/
noncomputable def incGamma (a z : ℝ) : Option ℝ :=
  if ¬ (z ≥ 0 ∧ a ≥ 0) then none
  else if a = 0 then some 1
  else if z = 0 then some 0
  else if z > a + 1 then (incGammaHigh a z).map (1 - ·)
  else incGammaLow a z

/-- probability.cpp 287-303 `IncompleteGammaComplement`. -/
noncomputable def incGammaC (a z : ℝ) : Option ℝ :=
  if ¬ (z ≥ 0 ∧ a ≥ 0) then none
  else if a = 0 then some 0
  else if z = 0 then some 1
  else if z < a + 1 then (incGammaLow a z).map (1 - ·)
  else incGammaHigh a z

/-- probability.cpp 50-75 `GaussianConditional`. -/
noncomputable def gaussianConditional (mean stddev val : ℝ) : Option ℝ :=
  if stddev = 0 then none
  else
    let diff := val - mean
    let dn := diff / stddev
    let d2 := dn * dn / 2
    if dn < √3 + 10 * machEps then
      (incGammaC (1 / 2) d2).bind fun erfc =>
        (gaussian mean stddev val).map fun g => g / (if dn > 0 then erfc / 2 else 1 - erfc / 2)
    else (incGammaFrac (1 / 2) d2).map fun f => 2 / (|diff| * f)

/-- probability.cpp 89-106 `PoissonConditional`. -/
noncomputable def poissonConditional (mean : ℝ) (step : Nat) : Option ℝ :=
  if ¬ mean ≥ 0 then none
  else if mean = 0 then some (if step = 0 then 1 else 0)
  else if step = 0 then some (Real.exp (-mean))
  else if mean > (step : ℝ) + 1 then (poisson mean step).bind fun p => (incGamma step mean).map fun g => p / g
  else (incGammaSeries step mean).map fun s => 1 / s

end WFMath.Prob
