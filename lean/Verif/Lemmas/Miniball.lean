/- Lemmas on smallest enclosing balls with given points on the boundary, and on the algorithm that computes them. -/
import Verif.Model.Miniball
import Verif.Lemmas.Eucl
import Mathlib.LinearAlgebra.AffineSpace.AffineSubspace.Basic
import Mathlib.LinearAlgebra.Matrix.ToLinearEquiv
import Mathlib.Data.List.Perm.Basic

namespace WFMath.Miniball
open Matrix
variable {n : Nat}

/-- The squared distance. -/
noncomputable def dsq (x c : Fin n → ℝ) : ℝ := ∑ k, (x k - c k) ^ 2

theorem dsq_nonneg (x c : Fin n → ℝ) : 0 ≤ dsq x c := Finset.sum_nonneg fun k _ => sq_nonneg _
theorem dsq_self (x : Fin n → ℝ) : dsq x x = 0 := by simp [dsq]
theorem dsq_eq_zero {x c : Fin n → ℝ} (h : dsq x c = 0) : x = c := by
  funext k
  have := (Finset.sum_eq_zero_iff_of_nonneg (fun k _ => sq_nonneg (x k - c k))).1 h k (Finset.mem_univ k)
  have := pow_eq_zero_iff (two_ne_zero) |>.1 this
  linarith
theorem dsq_dot (x c : Fin n → ℝ) : dsq x c = (x - c) ⬝ᵥ (x - c) := by
  unfold dsq dotProduct
  exact Finset.sum_congr rfl fun k _ => by rw [Pi.sub_apply, sq]
theorem dsq_mix (p c1 c2 : Fin n → ℝ) (t : ℝ) :
    dsq p ((1 - t) • c1 + t • c2) = (1 - t) * dsq p c1 + t * dsq p c2 - t * (1 - t) * dsq c1 c2 := by
  simp only [dsq, Pi.add_apply, Pi.smul_apply, smul_eq_mul, Finset.mul_sum, ← Finset.sum_add_distrib, ← Finset.sum_sub_distrib]
  exact Finset.sum_congr rfl fun k _ => by ring
/-- The difference of the squared distances from two points. -/
theorem dsq_sub (p q c : Fin n → ℝ) : dsq p c - dsq q c = dsq p q - 2 * ((p - q) ⬝ᵥ (c - q)) := by
  simp only [dsq, dotProduct, Pi.sub_apply, Finset.mul_sum, ← Finset.sum_sub_distrib]
  exact Finset.sum_congr rfl fun k _ => by ring
theorem dsq_add (p c w : Fin n → ℝ) : dsq p (c + w) = dsq p c - 2 * (w ⬝ᵥ (p - c)) + w ⬝ᵥ w := by
  simp only [dsq, dotProduct, Pi.sub_apply, Pi.add_apply, Finset.mul_sum, ← Finset.sum_sub_distrib, ← Finset.sum_add_distrib]
  exact Finset.sum_congr rfl fun k _ => by ring

/-! ### Balls -/

/-- The ball of squared radius `ρ` about `c` contains `P` and has `Q` on its boundary. -/
def Encl (P Q : List (Fin n → ℝ)) (c : Fin n → ℝ) (ρ : ℝ) : Prop := (∀ p ∈ P, dsq p c ≤ ρ) ∧ ∀ q ∈ Q, dsq q c = ρ
/-- It is a smallest such ball. -/
def MB (P Q : List (Fin n → ℝ)) (c : Fin n → ℝ) (ρ : ℝ) : Prop := Encl P Q c ρ ∧ ∀ c' ρ', Encl P Q c' ρ' → ρ ≤ ρ'

theorem Encl.mono {P P' Q Q' : List (Fin n → ℝ)} {c : Fin n → ℝ} {ρ : ℝ} (h : Encl P Q c ρ) (hp : ∀ p ∈ P', p ∈ P ∨ p ∈ Q)
    (hq : ∀ q ∈ Q', q ∈ Q) : Encl P' Q' c ρ :=
  ⟨fun p h' => (hp p h').elim (h.1 p) fun h' => (h.2 p h').le, fun q h' => h.2 q (hq q h')⟩
theorem MB.congr {P P' Q : List (Fin n → ℝ)} {c : Fin n → ℝ} {ρ : ℝ} (h : MB P Q c ρ) (hp : ∀ p, p ∈ P' ↔ p ∈ P) : MB P' Q c ρ :=
  ⟨h.1.mono (fun p h' => .inl ((hp p).1 h')) fun q h' => h', fun c' ρ' h' =>
    h.2 c' ρ' (h'.mono (fun p h' => .inl ((hp p).2 h')) fun q h' => h')⟩

theorem mix_encl {P Q : List (Fin n → ℝ)} {c1 c2 : Fin n → ℝ} {ρ1 ρ2 t : ℝ} (h1 : Encl P Q c1 ρ1) (h2 : Encl P Q c2 ρ2) (h0 : 0 ≤ t) (ht : t ≤ 1) :
    Encl P Q ((1 - t) • c1 + t • c2) ((1 - t) * ρ1 + t * ρ2 - t * (1 - t) * dsq c1 c2) := by
  refine ⟨fun p hp => ?_, fun q hq => ?_⟩
  · rw [dsq_mix]
    have := mul_le_mul_of_nonneg_left (h1.1 p hp) (sub_nonneg.2 ht)
    have := mul_le_mul_of_nonneg_left (h2.1 p hp) h0
    linarith
  · rw [dsq_mix, h1.2 q hq, h2.2 q hq]

/-- The smallest ball is unique. -/
theorem MB.unique {P Q : List (Fin n → ℝ)} {c1 c2 : Fin n → ℝ} {ρ1 ρ2 : ℝ} (h1 : MB P Q c1 ρ1) (h2 : MB P Q c2 ρ2) : c1 = c2 ∧ ρ1 = ρ2 := by
  have e : ρ1 = ρ2 := le_antisymm (h1.2 _ _ h2.1) (h2.2 _ _ h1.1)
  refine ⟨dsq_eq_zero (le_antisymm ?_ (dsq_nonneg _ _)), e⟩
  have := h1.2 _ _ (mix_encl h1.1 h2.1 (t := 1 / 2) (by norm_num) (by norm_num))
  rw [← e] at this
  linarith

/-- Between a ball that misses `j` and one that contains it there is one with `j` on its boundary. -/
theorem level {P Q : List (Fin n → ℝ)} {j c1 c2 : Fin n → ℝ} {ρ1 ρ2 : ℝ} (h1 : Encl P Q c1 ρ1) (h2 : Encl P Q c2 ρ2) (e1 : ρ1 < dsq j c1)
    (e2 : dsq j c2 ≤ ρ2) : ∃ c ρ t, Encl P (j :: Q) c ρ ∧ 0 < t ∧ t ≤ 1 ∧ ρ ≤ (1 - t) * ρ1 + t * ρ2 := by
  have hd : 0 < (dsq j c1 - ρ1) - (dsq j c2 - ρ2) := by linarith
  have ht : 0 < (dsq j c1 - ρ1) / ((dsq j c1 - ρ1) - (dsq j c2 - ρ2)) := div_pos (by linarith) hd
  have ht1 : (dsq j c1 - ρ1) / ((dsq j c1 - ρ1) - (dsq j c2 - ρ2)) ≤ 1 := by rw [div_le_one hd]; linarith
  have hm : (dsq j c1 - ρ1) / ((dsq j c1 - ρ1) - (dsq j c2 - ρ2)) * ((dsq j c1 - ρ1) - (dsq j c2 - ρ2)) = dsq j c1 - ρ1 :=
    div_mul_cancel₀ _ hd.ne'
  generalize (dsq j c1 - ρ1) / ((dsq j c1 - ρ1) - (dsq j c2 - ρ2)) = t at ht ht1 hm
  have hE := mix_encl h1 h2 ht.le ht1
  refine ⟨_, _, t, ⟨hE.1, fun q hq => ?_⟩, ht, ht1, ?_⟩
  · rcases List.mem_cons.1 hq with rfl | hq
    · rw [dsq_mix]; linarith
    · exact hE.2 q hq
  · have := mul_nonneg (mul_nonneg ht.le (sub_nonneg.2 ht1)) (dsq_nonneg c1 c2)
    linarith

/-- A point outside the smallest ball is on the boundary of the next one. -/
theorem welzl {S Q : List (Fin n → ℝ)} {j c d : Fin n → ℝ} {ρ δ : ℝ} (hD : Encl S Q d δ) (hj : δ < dsq j d) (hρ : δ ≤ ρ) (hC : MB S (j :: Q) c ρ) :
    MB (j :: S) Q c ρ := by
  refine ⟨hC.1.mono (fun p hp => ?_) (fun q hq => List.mem_cons_of_mem _ hq), fun c' ρ' h' => ?_⟩
  · rcases List.mem_cons.1 hp with rfl | hp
    · exact .inr (by simp)
    · exact .inl hp
  · by_contra hlt
    rw [not_le] at hlt
    have hS : Encl S Q c' ρ' := h'.mono (fun p hp => .inl (List.mem_cons_of_mem _ hp)) fun q hq => hq
    obtain ⟨x, r, t, hx, t0, t1, hr⟩ := level hD hS hj (h'.1 j (by simp))
    have := hC.2 x r hx
    have := mul_le_mul_of_nonneg_left hρ (sub_nonneg.2 t1)
    have := mul_lt_mul_of_pos_left hlt t0
    linarith

/-- A point outside the smallest ball makes it grow. -/
theorem grows {S Q : List (Fin n → ℝ)} {j c d : Fin n → ℝ} {ρ δ : ℝ} (hD : MB S Q d δ) (hj : δ < dsq j d) (hC : MB (j :: S) Q c ρ) : δ < ρ := by
  have hS : Encl S Q c ρ := hC.1.mono (fun p hp => .inl (List.mem_cons_of_mem _ hp)) fun q hq => hq
  refine lt_of_le_of_ne (hD.2 _ _ hS) fun e => ?_
  have hM : MB S Q c ρ := ⟨hS, fun c' ρ' h' => e ▸ hD.2 c' ρ' h'⟩
  obtain ⟨e1, e2⟩ := hD.unique hM
  rw [e1, e2] at hj
  exact absurd (hC.1.1 j (by simp)) (not_le.2 hj)

/-! ### The basis -/

/-- What is true of the frames (the last one excepted), the points and the ball of a basis. -/
structure GoodTop (q0 : Fin n → ℝ) (Q : List (Fin n → ℝ)) (top : Frame n) (fs : List (Frame n)) : Prop where
  mem : q0 ∈ Q
  orth : fs.Pairwise fun a b => a.v ⬝ᵥ b.v = 0
  pos : ∀ fr ∈ fs, 0 < fr.v ⬝ᵥ fr.v ∧ fr.z = 2 * (fr.v ⬝ᵥ fr.v)
  perp : ∀ x : Fin n → ℝ, (∀ fr ∈ fs, fr.v ⬝ᵥ x = 0) ↔ ∀ q ∈ Q, (q - q0) ⬝ᵥ x = 0
  aff : ∀ fr ∈ fs, fr.v ∈ vectorSpan ℝ {q | q ∈ Q}
  sphere : ∀ q ∈ Q, dsq q top.c = top.sqrR
  inPlane : ∀ x : Fin n → ℝ, (∀ fr ∈ fs, fr.v ⬝ᵥ x = 0) → (top.c - q0) ⬝ᵥ x = 0

/-- The frames belong to the points. -/
def Good (q0 : Fin n → ℝ) : List (Fin n → ℝ) → List (Frame n) → Prop
  | [], [] => True
  | q :: Q, fr :: frs => GoodTop q0 (q :: Q) fr (fr :: frs).dropLast ∧ Good q0 Q frs
  | _, _ => False

theorem Good.length {q0 : Fin n → ℝ} : ∀ {Q : List (Fin n → ℝ)} {fs : List (Frame n)}, Good q0 Q fs → Q.length = fs.length
  | [], [], _ => rfl
  | _ :: _, _ :: _, h => congrArg (· + 1) h.2.length
  | [], _ :: _, h => h.elim
  | _ :: _, [], h => h.elim

theorem good_single (p : Fin n → ℝ) : Good p [p] [⟨0, 0, p, 0⟩] :=
  ⟨⟨by simp, by simp, by simp, by simp, by simp, by simp [dsq_self], by simp⟩, trivial⟩

theorem sum_dot_zero {fs : List (Frame n)} {x : Fin n → ℝ} (g : Frame n → ℝ) (h : ∀ fr ∈ fs, fr.v ⬝ᵥ x = 0) :
    (fs.map fun fr => g fr • fr.v).sum ⬝ᵥ x = 0 := by
  induction fs with
  | nil => simp
  | cons a fs ih =>
    rw [List.map_cons, List.sum_cons, add_dotProduct, smul_dotProduct, h a (by simp), smul_zero, zero_add]
    exact ih fun fr hf => h fr (by simp [hf])
theorem sum_dot_mem {fs : List (Frame n)} (g : Frame n → ℝ) (ho : fs.Pairwise fun a b => a.v ⬝ᵥ b.v = 0) {fr : Frame n} (hf : fr ∈ fs) :
    (fs.map fun fr => g fr • fr.v).sum ⬝ᵥ fr.v = g fr * (fr.v ⬝ᵥ fr.v) := by
  induction fs with
  | nil => simp at hf
  | cons a fs ih =>
    rw [List.pairwise_cons] at ho
    rw [List.map_cons, List.sum_cons, add_dotProduct, smul_dotProduct, smul_eq_mul]
    rcases List.mem_cons.1 hf with rfl | hf
    · rw [sum_dot_zero g (fun b hb => by rw [dotProduct_comm]; exact ho.1 b hb), add_zero]
    · rw [ho.1 fr hf, mul_zero, zero_add]
      exact ih ho.2 hf

theorem residue_perp {q0 : Fin n → ℝ} {Q : List (Fin n → ℝ)} {top : Frame n} {frames : List (Frame n)} (h : GoodTop q0 Q top frames.dropLast)
    (p : Fin n → ℝ) {fr : Frame n} (hf : fr ∈ frames.dropLast) : Basis.residue q0 frames p ⬝ᵥ fr.v = 0 := by
  unfold Basis.residue
  rw [sub_dotProduct, sum_dot_mem _ h.orth hf, (h.pos fr hf).2, dotProduct_comm]
  have := (h.pos fr hf).1
  field_simp
  ring

theorem sum_aff {Q : List (Fin n → ℝ)} {fs : List (Frame n)} (g : Frame n → ℝ) (h : ∀ fr ∈ fs, fr.v ∈ vectorSpan ℝ {q | q ∈ Q}) :
    (fs.map fun fr => g fr • fr.v).sum ∈ vectorSpan ℝ {q | q ∈ Q} := by
  induction fs with
  | nil => simp
  | cons a fs ih =>
    rw [List.map_cons, List.sum_cons]
    exact Submodule.add_mem _ (Submodule.smul_mem _ _ (h a (by simp))) (ih fun fr hf => h fr (by simp [hf]))

/-- The foot of the perpendicular is in the flat through the points. -/
theorem foot_mem {q0 : Fin n → ℝ} {Q : List (Fin n → ℝ)} {top : Frame n} {frames : List (Frame n)} (h : GoodTop q0 Q top frames.dropLast)
    (p : Fin n → ℝ) : p - Basis.residue q0 frames p ∈ affineSpan ℝ {q | q ∈ Q} := by
  have e : p - Basis.residue q0 frames p =
      ((frames.dropLast.map fun fr => ((fr.v ⬝ᵥ (p - q0)) * (2 / fr.z)) • fr.v).sum) +ᵥ q0 := by
    unfold Basis.residue
    rw [vadd_eq_add]; abel
  rw [e]
  exact AffineSubspace.vadd_mem_of_mem_direction (by rw [direction_affineSpan]; exact sum_aff _ h.aff) (mem_affineSpan ℝ h.mem)

/-- Spheres through all points of the basis cut the flat through them in the same sphere. -/
theorem perp_of_aff {Q : List (Fin n → ℝ)} {q0 x w : Fin n → ℝ} (hq : q0 ∈ Q) (hx : ∀ q ∈ Q, (q - q0) ⬝ᵥ x = 0)
    (hw : w ∈ vectorSpan ℝ {q | q ∈ Q}) : w ⬝ᵥ x = 0 := by
  rw [vectorSpan_eq_span_vsub_set_right ℝ (show q0 ∈ {q | q ∈ Q} from hq)] at hw
  induction hw using Submodule.span_induction with
  | mem y hy =>
    obtain ⟨q, h, rfl⟩ := hy
    exact hx q h
  | zero => exact zero_dotProduct _
  | add y z _ _ hy hz => rw [add_dotProduct, hy, hz, add_zero]
  | smul a y _ hy => rw [smul_dotProduct, hy, smul_zero]
theorem centers_perp {Q : List (Fin n → ℝ)} {q0 c c' : Fin n → ℝ} {ρ ρ' : ℝ} (hq : q0 ∈ Q) (h : ∀ q ∈ Q, dsq q c = ρ) (h' : ∀ q ∈ Q, dsq q c' = ρ') :
    ∀ q ∈ Q, (q - q0) ⬝ᵥ (c - c') = 0 := fun q hqq => by
  have e1 := dsq_sub q q0 c
  have e2 := dsq_sub q q0 c'
  rw [h q hqq, h q0 hq] at e1
  rw [h' q hqq, h' q0 hq] at e2
  have : c - c' = (c - q0) - (c' - q0) := by abel
  rw [this, dotProduct_sub]
  linarith

theorem not_aff {Q : List (Fin n → ℝ)} {q0 p c c' : Fin n → ℝ} {ρ ρ' : ℝ} (hq : q0 ∈ Q) (h : Encl [] Q c ρ) (he : ρ < dsq p c)
    (h' : Encl [] (p :: Q) c' ρ') : p ∉ affineSpan ℝ {q | q ∈ Q} := fun hp => by
  have hw : p - q0 ∈ vectorSpan ℝ {q | q ∈ Q} := by
    rw [← direction_affineSpan]
    exact AffineSubspace.vsub_mem_direction hp (mem_affineSpan ℝ hq)
  have h'' : ∀ q ∈ Q, dsq q c' = ρ' := fun q hqq => h'.2 q (by simp [hqq])
  have hx := perp_of_aff hq (centers_perp hq h.2 h'') hw
  have e1 := dsq_sub p q0 c
  have e2 := dsq_sub p q0 c'
  rw [h.2 q0 hq] at e1
  rw [h'.2 p (by simp), h'' q0 hq] at e2
  have : c - c' = (c - q0) - (c' - q0) := by abel
  rw [this, dotProduct_sub] at hx
  linarith

/-- The ball of the top frame is the smallest with the points on its boundary. -/
theorem GoodTop.mb {q0 : Fin n → ℝ} {Q : List (Fin n → ℝ)} {top : Frame n} {fs : List (Frame n)} (h : GoodTop q0 Q top fs) :
    MB [] Q top.c top.sqrR := by
  refine ⟨⟨by simp, h.sphere⟩, fun c' ρ' h' => ?_⟩
  have hp := centers_perp h.mem h'.2 h.sphere
  have h0 := h.inPlane _ ((h.perp _).2 hp)
  have e := dsq_add q0 top.c (c' - top.c)
  rw [show top.c + (c' - top.c) = c' by abel, h'.2 q0 h.mem, h.sphere q0 h.mem] at e
  have h1 : (c' - top.c) ⬝ᵥ (q0 - top.c) = 0 := by
    rw [dotProduct_comm, show q0 - top.c = -(top.c - q0) by abel, neg_dotProduct, h0, neg_zero]
  have h2 : 0 ≤ (c' - top.c) ⬝ᵥ (c' - top.c) := by rw [← dsq_dot]; exact dsq_nonneg _ _
  rw [h1] at e
  linarith

/-- The state after a push that is accepted. -/
theorem push_good {B : Basis n} {Q : List (Fin n → ℝ)} {p : Fin n → ℝ} {q : Fin n → ℝ} (hG : Good B.q0 (q :: Q) B.frames)
    (hp : p ∉ affineSpan ℝ {x | x ∈ q :: Q})
    (hr : ∀ x ∈ affineSpan ℝ {x | x ∈ q :: Q}, pushEps * B.curR ≤ 2 * dsq p x) :
    ∃ B1, B.push p = some B1 ∧ B1.q0 = B.q0 ∧ B1.frames.tail = B.frames ∧ B1.frames ≠ [] ∧ Good B1.q0 (p :: q :: Q) B1.frames ∧
      MB [] (p :: q :: Q) B1.curC B1.curR ∧ B1.s = Q.length + 2 := by
  have hlen := hG.length
  match hf : B.frames with
  | [] => rw [hf] at hlen; simp at hlen
  | top :: rest =>
    rw [hf] at hG hlen
    have hT : GoodTop B.q0 (q :: Q) top (top :: rest).dropLast := hG.1
    have hfoot := foot_mem hT p
    have hv : dsq p (p - Basis.residue B.q0 (top :: rest) p) = Basis.residue B.q0 (top :: rest) p ⬝ᵥ Basis.residue B.q0 (top :: rest) p := by
      rw [dsq_dot, sub_sub_cancel]
    have hne : Basis.residue B.q0 (top :: rest) p ≠ 0 := fun h0 => hp (by rw [h0, sub_zero] at hfoot; exact hfoot)
    have hperp : ∀ fr ∈ (top :: rest).dropLast, Basis.residue B.q0 (top :: rest) p ⬝ᵥ fr.v = 0 := fun fr hfr => residue_perp hT p hfr
    have hdec : p - B.q0 = Basis.residue B.q0 (top :: rest) p +
        (((top :: rest).dropLast.map fun fr => ((fr.v ⬝ᵥ (p - B.q0)) * (2 / fr.z)) • fr.v).sum) := by
      unfold Basis.residue; abel
    have hrej := hr _ hfoot
    rw [hv] at hrej
    obtain ⟨v, hvd⟩ : ∃ v, v = Basis.residue B.q0 (top :: rest) p := ⟨_, rfl⟩
    rw [← hvd] at hfoot hv hne hperp hdec hrej
    have hvv : 0 < v ⬝ᵥ v := lt_of_le_of_ne (by rw [← sub_zero v, ← dsq_dot]; exact dsq_nonneg _ _) fun h0 => hne (dotProduct_self_eq_zero.1 h0.symm)
    have hpush : B.push p = some ⟨B.q0, ⟨v, 2 * (v ⬝ᵥ v), top.c + ((-top.sqrR + dsq p top.c) / (2 * (v ⬝ᵥ v))) • v,
        top.sqrR + (-top.sqrR + dsq p top.c) * ((-top.sqrR + dsq p top.c) / (2 * (v ⬝ᵥ v))) / 2⟩ :: top :: rest, rest.length + 2,
        top.c + ((-top.sqrR + dsq p top.c) / (2 * (v ⬝ᵥ v))) • v,
        top.sqrR + (-top.sqrR + dsq p top.c) * ((-top.sqrR + dsq p top.c) / (2 * (v ⬝ᵥ v))) / 2⟩ := by
      unfold Basis.push
      rw [hf]
      simp only [← hvd]
      rw [if_neg (not_lt.2 hrej)]
      rfl
    have hfz : (-top.sqrR + dsq p top.c) / (2 * (v ⬝ᵥ v)) * (2 * (v ⬝ᵥ v)) = -top.sqrR + dsq p top.c := div_mul_cancel₀ _ (by positivity)
    generalize (-top.sqrR + dsq p top.c) / (2 * (v ⬝ᵥ v)) = f at *
    have hvp : v ⬝ᵥ (p - B.q0) = v ⬝ᵥ v := by
      rw [hdec, dotProduct_add, dotProduct_comm v (List.sum _),
        sum_dot_zero (fun fr => (fr.v ⬝ᵥ (p - B.q0)) * (2 / fr.z)) (fun fr hfr => by rw [dotProduct_comm]; exact hperp fr hfr), add_zero]
    have hvq : ∀ x ∈ q :: Q, (x - B.q0) ⬝ᵥ v = 0 := (hT.perp v).1 fun fr hfr => by rw [dotProduct_comm]; exact hperp fr hfr
    have hvc : (top.c - B.q0) ⬝ᵥ v = 0 := hT.inPlane v fun fr hfr => by rw [dotProduct_comm]; exact hperp fr hfr
    have hnew : GoodTop B.q0 (p :: q :: Q) ⟨v, 2 * (v ⬝ᵥ v), top.c + f • v, top.sqrR + (-top.sqrR + dsq p top.c) * f / 2⟩
        ((⟨v, 2 * (v ⬝ᵥ v), top.c + f • v, top.sqrR + (-top.sqrR + dsq p top.c) * f / 2⟩ : Frame n) :: (top :: rest).dropLast) := by
      refine ⟨List.mem_cons_of_mem _ hT.mem, ?_, ?_, ?_, ?_, ?_, ?_⟩
      · rw [List.pairwise_cons]
        exact ⟨hperp, hT.orth⟩
      · intro fr hfr
        rcases List.mem_cons.1 hfr with rfl | hfr
        · exact ⟨hvv, rfl⟩
        · exact hT.pos fr hfr
      · intro x
        constructor
        · intro h y hy
          have hx : ∀ fr ∈ (top :: rest).dropLast, fr.v ⬝ᵥ x = 0 := fun fr hfr => h fr (List.mem_cons_of_mem _ hfr)
          rcases List.mem_cons.1 hy with rfl | hy
          · rw [hdec, add_dotProduct, sum_dot_zero _ hx, add_zero]
            exact h _ (List.mem_cons_self)
          · exact (hT.perp x).1 hx y hy
        · intro h fr hfr
          have hx := (hT.perp x).2 fun y hy => h y (List.mem_cons_of_mem _ hy)
          rcases List.mem_cons.1 hfr with rfl | hfr
          · have := h p (List.mem_cons_self)
            rw [hdec, add_dotProduct, sum_dot_zero _ hx, add_zero] at this
            exact this
          · exact hx fr hfr
      · have hsub : {x | x ∈ q :: Q} ⊆ {x | x ∈ p :: q :: Q} := fun x hx => List.mem_cons_of_mem _ hx
        intro fr hfr
        rcases List.mem_cons.1 hfr with rfl | hfr
        · show v ∈ _
          have h1 : p ∈ affineSpan ℝ {x | x ∈ p :: q :: Q} := mem_affineSpan ℝ (List.mem_cons_self)
          have h2 : p - v ∈ affineSpan ℝ {x | x ∈ p :: q :: Q} := affineSpan_mono ℝ hsub hfoot
          have := AffineSubspace.vsub_mem_direction h1 h2
          rw [direction_affineSpan, vsub_eq_sub, sub_sub_cancel] at this
          exact this
        · exact vectorSpan_mono ℝ hsub (hT.aff fr hfr)
      · intro y hy
        show dsq y (top.c + f • v) = _
        rw [dsq_add, smul_dotProduct, smul_dotProduct, dotProduct_smul, smul_eq_mul, smul_eq_mul, smul_eq_mul]
        have hsplit : v ⬝ᵥ (y - top.c) = v ⬝ᵥ (y - B.q0) := by
          rw [show y - top.c = (y - B.q0) - (top.c - B.q0) by abel, dotProduct_sub, dotProduct_comm v (top.c - B.q0), hvc, sub_zero]
        rw [hsplit]
        rcases List.mem_cons.1 hy with rfl | hy
        · rw [hvp]
          simp only
          linear_combination (1 / 2 * f - 1) * hfz
        · rw [dotProduct_comm v (y - B.q0), hvq y hy, hT.sphere y hy]
          simp only
          linear_combination (1 / 2 * f) * hfz
      · intro x hx
        show (top.c + f • v - B.q0) ⬝ᵥ x = 0
        rw [show top.c + f • v - B.q0 = (top.c - B.q0) + f • v by abel, add_dotProduct, smul_dotProduct,
          hT.inPlane x (fun fr hfr => hx fr (List.mem_cons_of_mem _ hfr)), hx _ (List.mem_cons_self), smul_zero, add_zero]
    refine ⟨_, hpush, rfl, ?_, by simp, ⟨?_, hG⟩, hnew.mb, ?_⟩
    · rfl
    · exact hnew
    · simp only [List.length_cons] at hlen
      simp only
      omega

/-- With as many points as the space can take, the sphere through them is unique. -/
theorem full_unique {q0 : Fin n → ℝ} {Q : List (Fin n → ℝ)} {top : Frame n} {fs : List (Frame n)} (h : GoodTop q0 Q top fs) (hl : fs.length = n)
    {c c' : Fin n → ℝ} {ρ ρ' : ℝ} (h1 : Encl [] Q c ρ) (h2 : Encl [] Q c' ρ') : c = c' ∧ ρ = ρ' := by
  have hx := (h.perp _).2 (centers_perp h.mem h1.2 h2.2)
  have hV : (Matrix.of fun i : Fin n => (fs.get (i.cast hl.symm)).v) * (Matrix.of fun i : Fin n => (fs.get (i.cast hl.symm)).v)ᵀ =
      Matrix.diagonal fun i => (fs.get (i.cast hl.symm)).v ⬝ᵥ (fs.get (i.cast hl.symm)).v := by
    ext i j
    rw [Matrix.mul_apply, Matrix.diagonal_apply]
    show (fs.get (i.cast hl.symm)).v ⬝ᵥ (fs.get (j.cast hl.symm)).v = _
    split_ifs with hij
    · rw [hij]
    · rcases lt_or_gt_of_ne hij with hlt | hlt
      · exact List.pairwise_iff_get.1 h.orth _ _ hlt
      · rw [dotProduct_comm]
        exact List.pairwise_iff_get.1 h.orth _ _ hlt
  have hdet : (Matrix.of fun i : Fin n => (fs.get (i.cast hl.symm)).v).det ≠ 0 := fun h0 => by
    have := congrArg Matrix.det hV
    rw [Matrix.det_mul, h0, zero_mul, Matrix.det_diagonal] at this
    exact (Finset.prod_pos fun i _ => (h.pos _ (List.get_mem fs (i.cast hl.symm))).1).ne this
  have hz : c - c' = 0 := Matrix.eq_zero_of_mulVec_eq_zero hdet (funext fun i => hx _ (List.get_mem fs (i.cast hl.symm)))
  have hc : c = c' := sub_eq_zero.1 hz
  exact ⟨hc, by rw [← h1.2 q0 h.mem, ← h2.2 q0 h.mem, hc]⟩

/-! ### The algorithm -/

/-- No point of the set `A` is close to, but off, a flat through other points of it, relative to the size `R`. -/
def Spread (A : Set (Fin n → ℝ)) (R : ℝ) : Prop := ∀ Q : List (Fin n → ℝ), (∀ q ∈ Q, q ∈ A) → Q ≠ [] → ∀ p ∈ A, p ∉ affineSpan ℝ {q | q ∈ Q} →
  ∀ x ∈ affineSpan ℝ {q | q ∈ Q}, pushEps * R ≤ 2 * dsq p x

theorem pushEps_pos : 0 < pushEps := by unfold pushEps; positivity

theorem excess_eq (B : Basis n) (p : Fin n → ℝ) : B.excess p = dsq p B.curC - B.curR := by
  unfold Basis.excess dsq; ring

/-- What a call of `mtf` achieves. -/
structure Done (B : Basis n) (Q l : List (Fin n → ℝ)) (r : Basis n × List (Fin n → ℝ) × Nat) : Prop where
  frames : r.1.frames = B.frames
  q0 : r.1.q0 = B.q0
  perm : r.2.1.Perm l
  le : r.2.2 ≤ r.2.1.length
  mb : MB l Q r.1.curC r.1.curR
  supp : MB (r.2.1.take r.2.2) Q r.1.curC r.1.curR
  s : r.1.s = Q.length + r.2.2
  bd : ∀ p ∈ r.2.1.take r.2.2, dsq p r.1.curC = r.1.curR

theorem mtf_spec {A : Set (Fin n → ℝ)} {R : ℝ} (hA : Spread A R) : ∀ (k : Nat) (B : Basis n) (q : Fin n → ℝ) (Q l : List (Fin n → ℝ)),
    (q :: Q).length + k = n + 1 → Good B.q0 (q :: Q) B.frames → MB [] (q :: Q) B.curC B.curR → B.s = (q :: Q).length →
    (∀ x ∈ q :: Q, x ∈ A) → (∀ x ∈ l, x ∈ A) → (∃ c ρ, Encl l (q :: Q) c ρ ∧ ρ ≤ R) → Done B (q :: Q) l (mtf k B l)
  | 0, B, q, Q, l, hk, hG, hB, hs, hQ, hl, ⟨c, ρ, hE, hρ⟩ => by
    have hlen := hG.length
    match hf : B.frames with
    | [] => rw [hf] at hlen; simp at hlen
    | top :: rest =>
      rw [hf] at hG hlen
      simp only [List.length_cons] at hlen hk
      have hu := full_unique hG.1 (by simp; omega) hB.1 (hE.mono (P' := []) (by simp) fun q h => h)
      have hE' : Encl l (q :: Q) B.curC B.curR := by rw [hu.1, hu.2]; exact hE
      refine ⟨rfl, rfl, List.Perm.refl _, Nat.zero_le _, ⟨hE', fun c' ρ' h' => hB.2 c' ρ' (h'.mono (by simp) fun q h => h)⟩, ?_, ?_, ?_⟩
      · show MB (l.take 0) _ _ _
        rw [List.take_zero]; exact hB
      · show B.s = _ + 0
        rw [hs]; rfl
      · show ∀ p ∈ l.take 0, _
        simp
  | k + 1, B, q, Q, l, hk, hG, hB, hs, hQ, hl, ⟨c, ρ, hE, hρ⟩ => by
    unfold mtf
    -- the loop: `pre` has been treated
    have loop : ∀ (rest pre : List (Fin n → ℝ)) (st : Basis n × List (Fin n → ℝ) × Nat), (∀ x ∈ pre, x ∈ l) → (∀ x ∈ rest, x ∈ l) →
        Done B (q :: Q) pre st → Done B (q :: Q) (pre ++ rest) (rest.foldl (fun st j =>
      if st.1.excess j > 0 then
        match st.1.push j with
        | some B1 => ((mtf k B1 st.2.1).1.pop, j :: (mtf k B1 st.2.1).2.1, (mtf k B1 st.2.1).2.2 + 1)
        | none => (st.1, st.2.1 ++ [j], st.2.2)
      else (st.1, st.2.1 ++ [j], st.2.2)) st) := by
      intro rest
      induction rest with
      | nil => intro pre st _ _ h; simpa using h
      | cons j rest ih =>
        intro pre st hpre hrest hD
        rw [List.foldl_cons, show pre ++ j :: rest = (pre ++ [j]) ++ rest by simp]
        refine ih (pre ++ [j]) _ (fun x hx => ?_) (fun x hx => hrest x (List.mem_cons_of_mem _ hx)) ?_
        · rcases List.mem_append.1 hx with hx | hx
          · exact hpre x hx
          · rw [List.mem_singleton.1 hx]; exact hrest j (List.mem_cons_self)
        have hpE : Encl pre (q :: Q) c ρ := hE.mono (fun p hp => .inl (hpre p hp)) fun q h => h
        split_ifs with hex
        · rw [gt_iff_lt, excess_eq, sub_pos] at hex
          -- a ball with `j` on the boundary
          obtain ⟨x, r, t, hx, t0, t1, hr⟩ := level hD.mb.1 hpE hex (hE.1 j (hrest j (List.mem_cons_self)))
          have hδ : st.1.curR ≤ ρ := hD.mb.2 _ _ hpE
          have hrR : r ≤ R := by
            have := mul_le_mul_of_nonneg_left hδ (sub_nonneg.2 t1)
            linarith
          have hmem : st.1.q0 ∈ q :: Q := by
            rw [hD.q0]
            have hlen := hG.length
            match hf : B.frames with
            | [] => rw [hf] at hlen; simp at hlen
            | top :: rest => rw [hf] at hG; exact hG.1.mem
          have hjA : j ∈ A := hl j (hrest j (List.mem_cons_self))
          have hna : j ∉ affineSpan ℝ {x | x ∈ q :: Q} :=
            not_aff hmem (hD.mb.1.mono (P' := []) (by simp) fun q h => h) hex (hx.mono (P' := []) (by simp) fun q h => h)
          obtain ⟨B1, e1, e2, e3, e4, e5, e6, e7⟩ := push_good (B := st.1) (Q := Q) (q := q) (p := j) (by rw [hD.q0, hD.frames]; exact hG) hna
            (fun y hy => le_trans (mul_le_mul_of_nonneg_left (hδ.trans hρ) pushEps_pos.le) (hA _ hQ (by simp) j hjA hna y hy))
          rw [e1]
          have hR := mtf_spec hA k B1 j (q :: Q) st.2.1 (by simp only [List.length_cons] at hk ⊢; omega) e5 e6 (by rw [e7]; rfl)
            (fun y hy => (List.mem_cons.1 hy).elim (fun h => h ▸ hjA) (hQ y)) (fun y hy => hl y (hpre y (hD.perm.mem_iff.1 hy)))
            ⟨x, r, hx.mono (fun p hp => .inl (hD.perm.mem_iff.1 hp)) fun q h => h, hrR⟩
          have hmono : st.1.curR ≤ (mtf k B1 st.2.1).1.curR := hD.mb.2 _ _
            (hR.mb.1.mono (fun p hp => .inl (hD.perm.mem_iff.2 hp)) fun q h => List.mem_cons_of_mem _ h)
          refine ⟨?_, ?_, ?_, ?_, ?_, ?_, ?_, ?_⟩
          · show (mtf k B1 st.2.1).1.frames.tail = _
            rw [hR.frames, e3, hD.frames]
          · show (mtf k B1 st.2.1).1.q0 = _
            rw [hR.q0, e2, hD.q0]
          · show (j :: (mtf k B1 st.2.1).2.1).Perm (pre ++ [j])
            exact ((hR.perm.trans hD.perm).cons j).trans (List.perm_append_singleton j pre).symm
          · show (mtf k B1 st.2.1).2.2 + 1 ≤ (mtf k B1 st.2.1).2.1.length + 1
            exact Nat.succ_le_succ hR.le
          · have := welzl (S := st.2.1) (hD.mb.1.mono (fun p hp => .inl (hD.perm.mem_iff.1 hp)) fun q h => h) hex hmono hR.mb
            exact this.congr fun p => by simp [hD.perm.mem_iff, or_comm]
          · have := welzl (S := (mtf k B1 st.2.1).2.1.take (mtf k B1 st.2.1).2.2)
              (hD.mb.1.mono (fun p hp => .inl (hD.perm.mem_iff.1 (hR.perm.mem_iff.1 (List.mem_of_mem_take hp)))) fun q h => h) hex hmono hR.supp
            exact this
          · show (mtf k B1 st.2.1).1.s = (q :: Q).length + ((mtf k B1 st.2.1).2.2 + 1)
            rw [hR.s]; simp only [List.length_cons]; omega
          · intro p hp
            rcases List.mem_cons.1 (show p ∈ j :: (mtf k B1 st.2.1).2.1.take (mtf k B1 st.2.1).2.2 from hp) with rfl | hp
            · exact hR.mb.1.2 p List.mem_cons_self
            · exact hR.bd p hp
        · rw [gt_iff_lt, not_lt, excess_eq, sub_nonpos] at hex
          refine ⟨hD.frames, hD.q0, hD.perm.append_right [j], ?_, ⟨⟨fun p hp => ?_, hD.mb.1.2⟩, fun c' ρ' h' => ?_⟩, ?_, hD.s, ?_⟩
          · show st.2.2 ≤ (st.2.1 ++ [j]).length
            rw [List.length_append]
            exact hD.le.trans (Nat.le_add_right _ _)
          · rcases List.mem_append.1 hp with hp | hp
            · exact hD.mb.1.1 p hp
            · rw [List.mem_singleton.1 hp]; exact hex
          · exact hD.mb.2 c' ρ' (h'.mono (fun p hp => .inl (List.mem_append_left _ hp)) fun q h => h)
          · show MB ((st.2.1 ++ [j]).take st.2.2) _ _ _
            rw [List.take_append_of_le_length hD.le]
            exact hD.supp
          · show ∀ p ∈ (st.2.1 ++ [j]).take st.2.2, _
            rw [List.take_append_of_le_length hD.le]
            exact hD.bd
    have := loop l [] (B, [], 0) (by simp) (fun x h => h) ⟨rfl, rfl, List.Perm.refl _, le_rfl, hB, hB, by simpa using hs, by simp⟩
    rw [List.nil_append] at this
    exact this

/-! ### The loop over pivots -/

theorem mb_point (p : Fin n → ℝ) : MB [] [p] p 0 := (good_single p).1.mb

theorem mtf_nil (k : Nat) (B : Basis n) : mtf k B [] = (B, [], 0) := by cases k <;> rfl

theorem mtf_first (p : Fin n → ℝ) : mtf (n + 1) Basis.reset [p] = (⟨p, [], 1, p, 0⟩, [p], 1) := by
  unfold mtf
  rw [List.foldl_cons, List.foldl_nil, if_pos]
  · show (Basis.pop (mtf n ⟨p, [⟨0, 0, p, 0⟩], 1, p, 0⟩ []).1, p :: (mtf n ⟨p, [⟨0, 0, p, 0⟩], 1, p, 0⟩ []).2.1,
      (mtf n ⟨p, [⟨0, 0, p, 0⟩], 1, p, 0⟩ []).2.2 + 1) = _
    rw [mtf_nil]; rfl
  · have := dsq_nonneg p 0
    rw [gt_iff_lt, excess_eq]
    show 0 < dsq p 0 - (-1)
    linarith

theorem maxExcess_fold (B : Basis n) : ∀ (l : List ((Fin n → ℝ) × Nat)) (st : ℝ × Option ((Fin n → ℝ) × Nat)),
    st.1 ≤ (l.foldl (fun st k => if B.excess k.1 > st.1 then (B.excess k.1, some k) else st) st).1 ∧
    (∀ k ∈ l, B.excess k.1 ≤ (l.foldl (fun st k => if B.excess k.1 > st.1 then (B.excess k.1, some k) else st) st).1) ∧
    ((l.foldl (fun st k => if B.excess k.1 > st.1 then (B.excess k.1, some k) else st) st) = st ∨
      ∃ k ∈ l, (l.foldl (fun st k => if B.excess k.1 > st.1 then (B.excess k.1, some k) else st) st) = (B.excess k.1, some k) ∧ st.1 < B.excess k.1)
  | [], st => by simp
  | k :: l, st => by
    rw [List.foldl_cons]
    split_ifs with h
    · obtain ⟨h1, h2, h3⟩ := maxExcess_fold B l (B.excess k.1, some k)
      refine ⟨h.le.trans h1, fun k' hk' => ?_, ?_⟩
      · rcases List.mem_cons.1 hk' with rfl | hk'
        · exact h1
        · exact h2 k' hk'
      · rcases h3 with h3 | ⟨k', hk', h3, h4⟩
        · exact .inr ⟨k, List.mem_cons_self, h3, h⟩
        · exact .inr ⟨k', List.mem_cons_of_mem _ hk', h3, lt_trans h h4⟩
    · obtain ⟨h1, h2, h3⟩ := maxExcess_fold B l st
      refine ⟨h1, fun k' hk' => ?_, ?_⟩
      · rcases List.mem_cons.1 hk' with rfl | hk'
        · exact (not_lt.1 h).trans h1
        · exact h2 k' hk'
      · rcases h3 with h3 | ⟨k', hk', h3, h4⟩
        · exact .inl h3
        · exact .inr ⟨k', List.mem_cons_of_mem _ hk', h3, h4⟩

theorem maxExcess_none {B : Basis n} {l : List (Fin n → ℝ)} (h : (maxExcess B l).2 = none) : ∀ p ∈ l, dsq p B.curC ≤ B.curR := fun p hp => by
  obtain ⟨-, h2, h3⟩ := maxExcess_fold B l.zipIdx (0, none)
  rcases h3 with h3 | ⟨k, -, h3, -⟩
  · obtain ⟨i, hi⟩ := List.mem_iff_getElem?.1 hp
    have := h2 (p, i) (List.mem_zipIdx_iff_getElem?.2 hi)
    rw [h3, excess_eq] at this
    linarith
  · unfold maxExcess at h
    rw [h3] at h
    simp at h
theorem maxExcess_some {B : Basis n} {l : List (Fin n → ℝ)} {p : Fin n → ℝ} {i : Nat} (h : (maxExcess B l).2 = some (p, i)) :
    B.curR < dsq p B.curC ∧ l[i]? = some p := by
  obtain ⟨-, -, h3⟩ := maxExcess_fold B l.zipIdx (0, none)
  unfold maxExcess at h
  rcases h3 with h3 | ⟨k, hk, h3, h4⟩
  · rw [h3] at h; simp at h
  · rw [h3] at h
    simp only [Option.some.injEq] at h
    subst h
    refine ⟨?_, List.mem_zipIdx_iff_getElem?.1 hk⟩
    rw [excess_eq] at h4
    simpa using h4

/-- What is true between the passes of the loop. -/
structure Inv (l : List (Fin n → ℝ)) (st : State n) : Prop where
  frames : st.B.frames = []
  perm : (st.front ++ st.back).Perm l
  le : st.s ≤ st.front.length
  mb : MB st.front [] st.B.curC st.B.curR
  supp : MB (st.front.take st.s) [] st.B.curC st.B.curR
  s : st.B.s = st.s
  bd : ∀ p ∈ st.front.take st.s, dsq p st.B.curC = st.B.curR
  ne : st.front ≠ []

theorem inv_start (p : Fin n → ℝ) (ps : List (Fin n → ℝ)) : Inv (p :: ps) ⟨⟨p, [], 1, p, 0⟩, [p], ps, 1⟩ := by
  have hm : MB [p] [] p 0 := ⟨⟨by simp [dsq_self], by simp⟩, fun c' ρ' h' => (dsq_nonneg p c').trans (h'.1 p (by simp))⟩
  exact ⟨rfl, List.Perm.refl _, le_rfl, hm, hm, rfl, by simp [dsq_self], by simp⟩

theorem pivotStep_spec {l : List (Fin n → ℝ)} {R : ℝ} (hA : Spread {x | x ∈ l} R) {c : Fin n → ℝ} {ρ : ℝ} (hE : Encl l [] c ρ) (hρ : ρ ≤ R)
    {st : State n} (h : Inv l st) {p : Fin n → ℝ} {i : Nat} (hp : st.B.curR < dsq p st.B.curC) (hi : st.back[i]? = some p) :
    Inv l (pivotStep st p i) ∧ st.B.curR < (pivotStep st p i).B.curR := by
  have hpush : (st.B.push p).getD st.B = ⟨p, [⟨0, 0, p, 0⟩], 1, p, 0⟩ := by unfold Basis.push; rw [h.frames]; rfl
  have hback : p ∈ st.back := List.mem_iff_getElem?.2 ⟨i, hi⟩
  have hmem : ∀ x, x ∈ st.front ∨ x ∈ st.back → x ∈ l := fun x hx => h.perm.mem_iff.1 (List.mem_append.2 hx)
  have hS : ∀ x ∈ st.front.take st.s, x ∈ l := fun x hx => hmem x (.inl (List.mem_of_mem_take hx))
  have hpl : p ∈ l := hmem p (.inr hback)
  have hSE : Encl (st.front.take st.s) [] c ρ := hE.mono (fun x hx => .inl (hS x hx)) fun q h => h
  obtain ⟨x, r, t, hx, t0, t1, hr⟩ := level h.supp.1 hSE hp (hE.1 p hpl)
  have hrR : r ≤ R := by
    have := mul_le_mul_of_nonneg_left (h.supp.2 _ _ hSE) (sub_nonneg.2 t1)
    linarith
  have hD := mtf_spec hA n ⟨p, [⟨0, 0, p, 0⟩], 1, p, 0⟩ p [] (st.front.take st.s) (by simp; omega) (good_single p) (mb_point p) rfl
    (by simpa using hpl) hS ⟨x, r, hx, hrR⟩
  have hstep : pivotStep st p i = ⟨(mtf n ⟨p, [⟨0, 0, p, 0⟩], 1, p, 0⟩ (st.front.take st.s)).1.pop,
      p :: (mtf n ⟨p, [⟨0, 0, p, 0⟩], 1, p, 0⟩ (st.front.take st.s)).2.1, st.front.drop st.s ++ st.back.eraseIdx i,
      (mtf n ⟨p, [⟨0, 0, p, 0⟩], 1, p, 0⟩ (st.front.take st.s)).2.2 + 1⟩ := by
    unfold pivotStep
    rw [hpush]
    simp
  rw [hstep]
  generalize mtf n ⟨p, [⟨0, 0, p, 0⟩], 1, p, 0⟩ (st.front.take st.s) = res at hD
  have hmono : st.B.curR ≤ res.1.curR := h.supp.2 _ _ (hD.mb.1.mono (fun p hp => .inl hp) (by simp))
  have hall : MB (p :: st.front.take st.s) [] res.1.curC res.1.curR := welzl h.supp.1 hp hmono hD.mb
  refine ⟨⟨?_, ?_, ?_, ?_, ?_, ?_, ?_, by simp⟩, grows h.supp hp hall⟩
  · show res.1.frames.tail = []
    rw [hD.frames]; rfl
  · show ((p :: res.2.1) ++ (st.front.drop st.s ++ st.back.eraseIdx i)).Perm l
    refine List.Perm.trans ?_ h.perm
    have hlt : i < st.back.length := (List.getElem?_eq_some_iff.1 hi).1
    have hpe : st.back[i] = p := (List.getElem?_eq_some_iff.1 hi).2
    have h1 : (p :: st.back.eraseIdx i).Perm st.back := by
      have := List.getElem_cons_eraseIdx_perm hlt
      rw [hpe] at this
      exact this
    have h2 : (res.2.1 ++ (st.front.drop st.s ++ p :: st.back.eraseIdx i)).Perm (st.front ++ st.back) := by
      have : (res.2.1 ++ st.front.drop st.s).Perm st.front := by
        have := hD.perm.append_right (st.front.drop st.s)
        rw [List.take_append_drop] at this
        exact this
      rw [← List.append_assoc]
      exact this.append h1
    refine List.Perm.trans ?_ h2
    rw [← List.append_assoc, ← List.append_assoc]
    exact List.perm_middle.symm
  · exact Nat.succ_le_succ hD.le
  · exact hall.congr fun x => by simp [hD.perm.mem_iff]
  · exact welzl (S := res.2.1.take res.2.2)
      (h.supp.1.mono (fun x hx => .inl (hD.perm.mem_iff.1 (List.mem_of_mem_take hx))) fun q h => h) hp hmono hD.supp
  · show res.1.s = _
    rw [hD.s]; simp only [List.length_cons, List.length_nil]; omega
  · intro y hy
    rcases List.mem_cons.1 (show y ∈ p :: res.2.1.take res.2.2 from hy) with rfl | hy
    · exact hD.mb.1.2 y List.mem_cons_self
    · exact hD.bd y hy

open Classical in
/-- The squared radius of the smallest ball about a finite set, if there is one. -/
noncomputable def rad (T : Finset (Fin n → ℝ)) : ℝ := if h : ∃ ρ c, MB T.toList [] c ρ then h.choose else 0

open Classical in
theorem rad_eq {l : List (Fin n → ℝ)} {c : Fin n → ℝ} {ρ : ℝ} (h : MB l [] c ρ) : rad l.toFinset = ρ := by
  have h' : MB l.toFinset.toList [] c ρ := h.congr fun p => by simp
  have hex : ∃ ρ c, MB l.toFinset.toList [] c ρ := ⟨ρ, c, h'⟩
  unfold rad
  rw [dif_pos hex]
  obtain ⟨c2, h2⟩ := hex.choose_spec
  exact (h2.unique h').2

open Classical in
theorem pivotLoop_spec {l : List (Fin n → ℝ)} {R : ℝ} (hA : Spread {x | x ∈ l} R) {c : Fin n → ℝ} {ρ : ℝ} (hE : Encl l [] c ρ) (hρ : ρ ≤ R) :
    ∀ (fuel : Nat) (st : State n), Inv l st → (l.toFinset.powerset.filter fun T => st.B.curR < rad T).card < fuel →
    ∃ st', pivotLoop fuel st = some st' ∧ Inv l st' ∧ ∀ p ∈ st'.back, dsq p st'.B.curC ≤ st'.B.curR
  | 0, _, _, h => by simp at h
  | fuel + 1, st, hI, hf => by
    unfold pivotLoop
    match hm : (maxExcess st.B st.back).2 with
    | none => exact ⟨st, rfl, hI, maxExcess_none hm⟩
    | some (p, i) =>
      obtain ⟨h1, h2⟩ := maxExcess_some hm
      obtain ⟨hI', hlt⟩ := pivotStep_spec hA hE hρ hI h1 h2
      simp only
      rw [if_pos hlt]
      refine pivotLoop_spec hA hE hρ fuel _ hI' ?_
      have hsub : (pivotStep st p i).front.toFinset ∈ l.toFinset.powerset := by
        rw [Finset.mem_powerset]
        intro x hx
        rw [List.mem_toFinset] at hx ⊢
        exact hI'.perm.mem_iff.1 (List.mem_append_left _ hx)
      have : (l.toFinset.powerset.filter fun T => (pivotStep st p i).B.curR < rad T).card <
          (l.toFinset.powerset.filter fun T => st.B.curR < rad T).card := by
        refine Finset.card_lt_card ⟨fun T hT => ?_, fun hc => ?_⟩
        · rw [Finset.mem_filter] at hT ⊢
          exact ⟨hT.1, hlt.trans hT.2⟩
        · have := hc (Finset.mem_filter.2 ⟨hsub, by rw [rad_eq hI'.mb]; exact hlt⟩)
          rw [Finset.mem_filter, rad_eq hI'.mb] at this
          exact lt_irrefl _ this.2
      omega

/-- What `build` achieves. -/
theorem build_spec {l : List (Fin n → ℝ)} (hne : l ≠ []) {R : ℝ} (hA : Spread {x | x ∈ l} R) {c : Fin n → ℝ} {ρ : ℝ} (hE : Encl l [] c ρ) (hρ : ρ ≤ R)
    {fuel : Nat} (hf : 2 ^ l.length ≤ fuel) :
    ∃ st, build fuel l = some st ∧ Inv l st ∧ MB l [] st.B.curC st.B.curR := by
  classical
  match l, hne with
  | p :: ps, _ =>
    have hI := inv_start p ps
    have hcard : ((p :: ps).toFinset.powerset.filter fun T => (0 : ℝ) < rad T).card < fuel := by
      refine lt_of_lt_of_le ?_ hf
      have h1 : ((p :: ps).toFinset.powerset.filter fun T => (0 : ℝ) < rad T).card < (p :: ps).toFinset.powerset.card := by
        refine Finset.card_lt_card ⟨Finset.filter_subset _ _, fun hc => ?_⟩
        have := hc (x := [p].toFinset) (by rw [Finset.mem_powerset]; intro x hx; simp at hx ⊢; exact .inl hx)
        rw [Finset.mem_filter, rad_eq hI.mb] at this
        exact lt_irrefl _ this.2
      rw [Finset.card_powerset] at h1
      exact lt_of_lt_of_le h1 (Nat.pow_le_pow_right (by norm_num) (List.toFinset_card_le _))
    obtain ⟨st, h1, h2, h3⟩ := pivotLoop_spec hA hE hρ fuel _ hI hcard
    refine ⟨st, ?_, h2, ?_⟩
    · show pivotLoop fuel ⟨(mtf (n + 1) Basis.reset [p]).1, (mtf (n + 1) Basis.reset [p]).2.1, ps, (mtf (n + 1) Basis.reset [p]).2.2⟩ = _
      rw [mtf_first]; exact h1
    · refine ⟨⟨fun x hx => ?_, by simp⟩, fun c' ρ' h' => h2.mb.2 c' ρ' (h'.mono (fun x hx => .inl (h2.perm.mem_iff.1 (List.mem_append_left _ hx)))
        fun q h => h)⟩
      rcases List.mem_append.1 (h2.perm.mem_iff.2 hx) with hx | hx
      · exact h2.mb.1.1 x hx
      · exact h3 x hx

/-! ### What holds for all points -/

/-- The squared radii kept are not negative. -/
def NN (B : Basis n) : Prop := (∀ fr ∈ B.frames, 0 ≤ fr.sqrR) ∧ 0 ≤ B.curR

theorem push_nn {B B1 : Basis n} {p : Fin n → ℝ} (h : ∀ fr ∈ B.frames, 0 ≤ fr.sqrR) (hp : B.push p = some B1) :
    NN B1 ∧ B1.frames.tail = B.frames := by
  unfold Basis.push at hp
  match hf : B.frames with
  | [] =>
    rw [hf] at hp
    simp only [Option.some.injEq] at hp
    subst hp
    exact ⟨⟨by simp, le_rfl⟩, rfl⟩
  | top :: rest =>
    rw [hf] at hp h
    simp only at hp
    split_ifs at hp with hz
    simp only [Option.some.injEq] at hp
    subst hp
    have hv : 0 ≤ Basis.residue B.q0 (top :: rest) p ⬝ᵥ Basis.residue B.q0 (top :: rest) p := by
      have := dsq_nonneg (Basis.residue B.q0 (top :: rest) p) 0
      rwa [dsq_dot, sub_zero] at this
    have ht := h top (by simp)
    have hr : 0 ≤ top.sqrR + (-top.sqrR + ∑ k, (p k - top.c k) ^ 2) * ((-top.sqrR + ∑ k, (p k - top.c k) ^ 2) /
        (2 * (Basis.residue B.q0 (top :: rest) p ⬝ᵥ Basis.residue B.q0 (top :: rest) p))) / 2 := by
      generalize -top.sqrR + ∑ k, (p k - top.c k) ^ 2 = e
      have : 0 ≤ e * (e / (2 * (Basis.residue B.q0 (top :: rest) p ⬝ᵥ Basis.residue B.q0 (top :: rest) p))) := by
        rw [mul_div_assoc']
        exact div_nonneg (mul_self_nonneg e) (by linarith)
      linarith
    refine ⟨⟨fun fr hfr => ?_, hr⟩, rfl⟩
    rcases List.mem_cons.1 hfr with rfl | hfr
    · exact hr
    · exact h fr hfr

theorem mtf_any : ∀ (k : Nat) (B : Basis n) (l : List (Fin n → ℝ)), NN B →
    NN (mtf k B l).1 ∧ (mtf k B l).1.frames = B.frames ∧ (mtf k B l).2.1.Perm l
  | 0, B, l, h => ⟨h, rfl, List.Perm.refl _⟩
  | k + 1, B, l, h => by
    unfold mtf
    have loop : ∀ (rest pre : List (Fin n → ℝ)) (st : Basis n × List (Fin n → ℝ) × Nat),
        NN st.1 ∧ st.1.frames = B.frames ∧ st.2.1.Perm pre → NN (rest.foldl (fun st j =>
      if st.1.excess j > 0 then
        match st.1.push j with
        | some B1 => ((mtf k B1 st.2.1).1.pop, j :: (mtf k B1 st.2.1).2.1, (mtf k B1 st.2.1).2.2 + 1)
        | none => (st.1, st.2.1 ++ [j], st.2.2)
      else (st.1, st.2.1 ++ [j], st.2.2)) st).1 ∧ (rest.foldl (fun st j =>
      if st.1.excess j > 0 then
        match st.1.push j with
        | some B1 => ((mtf k B1 st.2.1).1.pop, j :: (mtf k B1 st.2.1).2.1, (mtf k B1 st.2.1).2.2 + 1)
        | none => (st.1, st.2.1 ++ [j], st.2.2)
      else (st.1, st.2.1 ++ [j], st.2.2)) st).1.frames = B.frames ∧ (rest.foldl (fun st j =>
      if st.1.excess j > 0 then
        match st.1.push j with
        | some B1 => ((mtf k B1 st.2.1).1.pop, j :: (mtf k B1 st.2.1).2.1, (mtf k B1 st.2.1).2.2 + 1)
        | none => (st.1, st.2.1 ++ [j], st.2.2)
      else (st.1, st.2.1 ++ [j], st.2.2)) st).2.1.Perm (pre ++ rest) := by
      intro rest
      induction rest with
      | nil => intro pre st h; simpa using h
      | cons j rest ih =>
        intro pre st hst
        rw [List.foldl_cons, show pre ++ j :: rest = (pre ++ [j]) ++ rest by simp]
        refine ih (pre ++ [j]) _ ?_
        split_ifs with hex
        · match hp : st.1.push j with
          | none => exact ⟨hst.1, hst.2.1, hst.2.2.append_right [j]⟩
          | some B1 =>
            obtain ⟨n1, n2⟩ := push_nn hst.1.1 hp
            obtain ⟨m1, m2, m3⟩ := mtf_any k B1 st.2.1 n1
            refine ⟨⟨fun fr hfr => ?_, m1.2⟩, ?_, ?_⟩
            · exact m1.1 fr (List.mem_of_mem_tail hfr)
            · show (mtf k B1 st.2.1).1.frames.tail = _
              rw [m2, n2, hst.2.1]
            · show (j :: (mtf k B1 st.2.1).2.1).Perm (pre ++ [j])
              exact ((m3.trans hst.2.2).cons j).trans (List.perm_append_singleton j pre).symm
        · exact ⟨hst.1, hst.2.1, hst.2.2.append_right [j]⟩
    have := loop l [] (B, [], 0) ⟨h, rfl, List.Perm.refl _⟩
    rw [List.nil_append] at this
    exact this

/-- Whatever the points are, the loop only reorders them and ends with a radius. -/
theorem pivotLoop_any {l : List (Fin n → ℝ)} : ∀ (fuel : Nat) (st st' : State n), st.B.frames = [] → 0 ≤ st.B.curR → (st.front ++ st.back).Perm l →
    pivotLoop fuel st = some st' → 0 ≤ st'.B.curR ∧ (st'.front ++ st'.back).Perm l
  | 0, _, _, _, _, _, h => by simp [pivotLoop] at h
  | fuel + 1, st, st', hf, hn, hp, h => by
    unfold pivotLoop at h
    match hm : (maxExcess st.B st.back).2 with
    | none =>
      rw [hm] at h
      simp only [Option.some.injEq] at h
      subst h
      exact ⟨hn, hp⟩
    | some (p, i) =>
      rw [hm] at h
      simp only at h
      have hi := (maxExcess_some hm).2
      have hpush : (st.B.push p).getD st.B = ⟨p, [⟨0, 0, p, 0⟩], 1, p, 0⟩ := by unfold Basis.push; rw [hf]; rfl
      have hstep : pivotStep st p i = ⟨(mtf n ⟨p, [⟨0, 0, p, 0⟩], 1, p, 0⟩ (st.front.take st.s)).1.pop,
          p :: (mtf n ⟨p, [⟨0, 0, p, 0⟩], 1, p, 0⟩ (st.front.take st.s)).2.1, st.front.drop st.s ++ st.back.eraseIdx i,
          (mtf n ⟨p, [⟨0, 0, p, 0⟩], 1, p, 0⟩ (st.front.take st.s)).2.2 + 1⟩ := by
        unfold pivotStep
        rw [hpush]
        simp
      have hm := mtf_any n ⟨p, [⟨0, 0, p, 0⟩], 1, p, 0⟩ (st.front.take st.s) ⟨by simp, le_rfl⟩
      rw [hstep] at h
      generalize mtf n ⟨p, [⟨0, 0, p, 0⟩], 1, p, 0⟩ (st.front.take st.s) = res at h hm
      have k1 : res.1.pop.frames = [] := by
        show res.1.frames.tail = []
        rw [hm.2.1]; rfl
      have k2 : 0 ≤ res.1.pop.curR := hm.1.2
      have k3 : ((p :: res.2.1) ++ (st.front.drop st.s ++ st.back.eraseIdx i)).Perm l := by
        refine List.Perm.trans ?_ hp
        have hlt : i < st.back.length := (List.getElem?_eq_some_iff.1 hi).1
        have hpe : st.back[i] = p := (List.getElem?_eq_some_iff.1 hi).2
        have h1 : (p :: st.back.eraseIdx i).Perm st.back := by
          have := List.getElem_cons_eraseIdx_perm hlt
          rw [hpe] at this
          exact this
        have h2 : (res.2.1 ++ (st.front.drop st.s ++ p :: st.back.eraseIdx i)).Perm (st.front ++ st.back) := by
          have : (res.2.1 ++ st.front.drop st.s).Perm st.front := by
            have := hm.2.2.append_right (st.front.drop st.s)
            rw [List.take_append_drop] at this
            exact this
          rw [← List.append_assoc]
          exact this.append h1
        refine List.Perm.trans ?_ h2
        rw [← List.append_assoc, ← List.append_assoc]
        exact List.perm_middle.symm
      split_ifs at h
      · exact pivotLoop_any fuel _ st' k1 k2 k3 h
      · simp only [Option.some.injEq] at h
        subst h
        exact ⟨k2, k3⟩

theorem build_any {fuel : Nat} {l : List (Fin n → ℝ)} {st : State n} (h : build fuel l = some st) :
    0 ≤ st.B.curR ∧ (st.front ++ st.back).Perm l := by
  match l with
  | [] => simp [build] at h
  | p :: ps =>
    have h' : pivotLoop fuel ⟨(mtf (n + 1) Basis.reset [p]).1, (mtf (n + 1) Basis.reset [p]).2.1, ps, (mtf (n + 1) Basis.reset [p]).2.2⟩ = some st := h
    rw [mtf_first] at h'
    exact pivotLoop_any fuel _ st rfl le_rfl (List.Perm.refl _) h'

theorem foldl_max_ge {α : Type} (g : α → ℝ) : ∀ (l : List α) (m : ℝ),
    m ≤ l.foldl (fun m p => if g p > m then g p else m) m ∧ ∀ p ∈ l, g p ≤ l.foldl (fun m p => if g p > m then g p else m) m
  | [], m => by simp
  | a :: l, m => by
    rw [List.foldl_cons]
    obtain ⟨h1, h2⟩ := foldl_max_ge g l (if g a > m then g a else m)
    have h3 : m ≤ (if g a > m then g a else m) ∧ g a ≤ (if g a > m then g a else m) := by
      split_ifs with h
      · exact ⟨h.le, le_rfl⟩
      · exact ⟨le_rfl, not_lt.1 h⟩
    refine ⟨h3.1.trans h1, fun p hp => ?_⟩
    rcases List.mem_cons.1 hp with rfl | hp
    · exact h3.2.trans h1
    · exact h2 p hp

theorem maxError_ge (st : State n) : ∀ p ∈ st.front ++ st.back, st.B.excess p ≤ maxError st := fun p hp => by
  unfold maxError
  simp only
  rw [← List.take_append_drop st.s (st.front ++ st.back)] at hp
  rcases List.mem_append.1 hp with hp | hp
  · exact (le_abs_self _).trans (((foldl_max_ge (fun p => |st.B.excess p|) _ 0).2 p hp).trans (foldl_max_ge st.B.excess _ _).1)
  · exact (foldl_max_ge st.B.excess _ _).2 p hp

end WFMath.Miniball
