/- Property theorems C28-C32 about points. -/
import Verif.Props.Quaternion
import Verif.Model.Point

namespace WFMath
open Matrix Spec Quaternion
variable {n : Nat}

namespace Pt
@[simp] theorem sub_elem (p q : Pt n) : (p.sub q).elem = p.elem - q.elem := rfl
@[simp] theorem sub_valid (p q : Pt n) : (p.sub q).valid = (p.valid && q.valid) := rfl
@[simp] theorem addVec_elem (p : Pt n) (v : Vec n) : (p.addVec v).elem = p.elem + v.elem := rfl
@[simp] theorem addVec_valid (p : Pt n) (v : Vec n) : (p.addVec v).valid = (p.valid && v.valid) := rfl
@[simp] theorem subVec_elem (p : Pt n) (v : Vec n) : (p.subVec v).elem = p.elem - v.elem := rfl
@[simp] theorem subVec_valid (p : Pt n) (v : Vec n) : (p.subVec v).valid = (p.valid && v.valid) := rfl
@[simp] theorem origin_elem : (origin : Pt n).elem = 0 := rfl
@[simp] theorem origin_valid : (origin : Pt n).valid = true := rfl
end Pt

/-! ### C28 tolerant equality of points -/

/-- C28: true exactly when both are valid and every component differs by at most the scaled epsilon. -/
theorem C28_point_iff (p q : Pt n) (eps : ℝ) :
    p.isEqualTo q eps = true ↔ p.valid = true ∧ q.valid = true ∧
      ∀ i, |p.elem i - q.elem i| ≤ scaleEpsilonArr p.elem q.elem eps := by
  unfold Pt.isEqualTo
  cases hu : p.valid <;> cases hv : q.valid <;> simp

/-- C28: reflexive on valid points, symmetric, false if either is invalid. -/
theorem C28_point_laws (p q : Pt n) (eps : ℝ) (he : 0 ≤ eps) :
    (p.valid = true → p.isEqualTo p eps = true) ∧ p.isEqualTo q eps = q.isEqualTo p eps ∧
    (p.valid = false ∨ q.valid = false → p.isEqualTo q eps = false) := by
  refine ⟨fun h => ?_, ?_, fun h => ?_⟩
  · rw [C28_point_iff]; exact ⟨h, h, fun i => by simp [scaleEpsilonArr_nonneg he]⟩
  · rw [Bool.eq_iff_iff, C28_point_iff, C28_point_iff, scaleEpsilonArr_symm]
    simp only [abs_sub_comm]; tauto
  · rw [Bool.eq_false_iff, Ne, C28_point_iff]
    rintro ⟨h1, h2, _⟩
    simp [h1, h2] at h

example : (⟨![1, 2], true⟩ : Pt 2).isEqualTo ⟨![1, 2], true⟩ epsilon = true :=
  (C28_point_laws _ Pt.origin _ epsilon_pos.le).1 rfl

/-! ### C29 points and vectors form an affine space -/

/-- C29: the affine laws, coordinate by coordinate, whatever the validity of the operands. -/
theorem C29_affine (p q : Pt n) (u v : Vec n) :
    ((p.addVec v).sub p).elem = v.elem ∧ (p.addVec (q.sub p)).elem = q.elem ∧
    (p.addVec u).addVec v = p.addVec (u + v) ∧ p.subVec v = p.addVec (-v) ∧
    ((p.sub q) + (q.sub p)).elem = 0 ∧ (p.sub p).elem = 0 := by
  refine ⟨?_, ?_, ?_, ?_, ?_, ?_⟩
  · simp
  · simp
  · ext i
    · simp [add_assoc]
    · simp [Bool.and_assoc]
  · ext i
    · simp [sub_eq_add_neg]
    · simp
  · simp
  · simp

/-- C29: differences determine and are determined by the points. -/
theorem C29_difference (p q r : Pt n) (v : Vec n) :
    ((p.sub q).elem = v.elem ↔ p.elem = (q.addVec v).elem) ∧ ((p.sub q) + (q.sub r)).elem = (p.sub r).elem := by
  constructor
  · rw [Pt.sub_elem, Pt.addVec_elem, sub_eq_iff_eq_add, add_comm]
  · rw [Vec.add_elem, Pt.sub_elem, Pt.sub_elem, Pt.sub_elem]; abel

/-- C29: validity is conjunction, and for valid operands the laws are equalities of values. -/
theorem C29_valid (p q : Pt n) (v : Vec n) :
    ((p.addVec v).valid = true ↔ p.valid = true ∧ v.valid = true) ∧
    ((p.subVec v).valid = true ↔ p.valid = true ∧ v.valid = true) ∧
    ((p.sub q).valid = true ↔ p.valid = true ∧ q.valid = true) ∧
    (p.valid = true → q.valid = true → v.valid = true → (p.addVec v).sub p = v ∧ p.addVec (q.sub p) = q) := by
  refine ⟨by simp, by simp, by simp, fun h1 h2 h3 => ⟨?_, ?_⟩⟩
  · ext i
    · simp
    · simp [h1, h3]
  · ext i
    · simp
    · simp [h1, h2]

example : ((⟨![1, 2], true⟩ : Pt 2).addVec ⟨![3, 4], true⟩).elem = ![4, 6] := by
  rw [Pt.addVec_elem]; funext i; fin_cases i <;> simp <;> norm_num

/-! ### C30 midpoint and barycenter -/

/-- C30: `Midpoint(p, q, d)` is `p + (q - p) * d`. -/
theorem C30_midpoint (p q : Pt n) (d : ℝ) : Pt.midpoint p q d = p.addVec ((q.sub p).scale d) := by
  ext i
  · simp only [Pt.midpoint, Pt.addVec_elem, Vec.scale_elem, Pt.sub_elem, Pi.add_apply, Pi.smul_apply, Pi.sub_apply, smul_eq_mul]
    ring
  · simp only [Pt.midpoint, Pt.addVec_valid, Vec.scale_valid, Pt.sub_valid]
    cases p.valid <;> cases q.valid <;> rfl

theorem bLoop_eq (ps : List (Pt n)) (num : ℝ) (ok : Bool) (out : Fin n → ℝ) :
    Pt.bLoop (num, ok, out) ps = (num + ps.length, ok && ps.all (·.valid), out + (ps.map (·.elem)).sum) := by
  induction ps generalizing num ok out with
  | nil => simp [Pt.bLoop]
  | cons p ps ih =>
    rw [Pt.bLoop, ih]
    simp only [List.length_cons, List.all_cons, List.map_cons, List.sum_cons, Nat.cast_add, Nat.cast_one, Bool.and_assoc]
    refine Prod.ext (by simp only; ring) (Prod.ext rfl ?_)
    funext j; simp only [Pi.add_apply]; ring

/-- C30: the barycenter is the mean of the coordinates, and is valid when all the points are. -/
theorem C30_mean (ps : List (Pt n)) (h : ps ≠ []) (j : Fin n) :
    (Pt.barycenter ps).elem j = (ps.map fun p => p.elem j).sum / ps.length ∧
    ((Pt.barycenter ps).valid = true ↔ ∀ p ∈ ps, p.valid = true) := by
  cases ps with
  | nil => exact absurd rfl h
  | cons p ps =>
    simp only [Pt.barycenter, bLoop_eq]
    have : ∀ l : List (Pt n), (l.map (·.elem)).sum j = (l.map fun p => p.elem j).sum := by
      intro l; induction l with
      | nil => rfl
      | cons a l ih => simp [ih]
    constructor
    · simp only [Pi.add_apply, this, List.map_cons, List.sum_cons, List.length_cons, Nat.cast_add, Nat.cast_one]
      rw [add_comm (1 : ℝ)]
    · simp

/-- C30: no points give an invalid point. -/
theorem C30_empty (ws : List ℝ) (ps : List (Pt n)) :
    (Pt.barycenter ([] : List (Pt n))).valid = false ∧ (Pt.barycenterW ([] : List (Pt n)) ws).valid = false ∧
    (Pt.barycenterW ps []).valid = false := by
  refine ⟨rfl, by cases ws <;> rfl, by cases ps <;> rfl⟩

theorem sum_le_card {l : List ℝ} {M : ℝ} (h : ∀ x ∈ l, x ≤ M) : l.sum ≤ l.length * M := by
  induction l with
  | nil => simp
  | cons a l ih =>
    have h1 := h a (by simp)
    have h2 := ih fun x hx => h x (by simp [hx])
    simp only [List.sum_cons, List.length_cons, Nat.cast_add, Nat.cast_one]
    linarith

theorem card_le_sum {l : List ℝ} {M : ℝ} (h : ∀ x ∈ l, M ≤ x) : l.length * M ≤ l.sum := by
  induction l with
  | nil => simp
  | cons a l ih =>
    have h1 := h a (by simp)
    have h2 := ih fun x hx => h x (by simp [hx])
    simp only [List.sum_cons, List.length_cons, Nat.cast_add, Nat.cast_one]
    linarith

/-- C30: the barycenter is inside every axis-parallel slab containing the points, hence in their bounding box. -/
theorem C30_in_box (ps : List (Pt n)) (h : ps ≠ []) (j : Fin n) (lo hi : ℝ) (hb : ∀ p ∈ ps, lo ≤ p.elem j ∧ p.elem j ≤ hi) :
    lo ≤ (Pt.barycenter ps).elem j ∧ (Pt.barycenter ps).elem j ≤ hi := by
  rw [(C30_mean ps h j).1]
  have hl : (0 : ℝ) < ps.length := by exact_mod_cast List.length_pos_of_ne_nil h
  have h1 := sum_le_card (l := ps.map fun p => p.elem j) (M := hi) (by simpa using fun p hp => (hb p hp).2)
  have h2 := card_le_sum (l := ps.map fun p => p.elem j) (M := lo) (by simpa using fun p hp => (hb p hp).1)
  rw [List.length_map] at h1 h2
  rw [le_div_iff₀ hl, div_le_iff₀ hl]
  constructor <;> linarith

/-- C30: the order of the points does not matter. -/
theorem C30_order (ps qs : List (Pt n)) (h : ps.Perm qs) : Pt.barycenter ps = Pt.barycenter qs := by
  by_cases h0 : ps = []
  · subst h0; rw [List.nil_perm.1 h]
  have h0' : qs ≠ [] := fun e => h0 (by subst e; exact List.perm_nil.1 h)
  ext j
  · rw [(C30_mean ps h0 j).1, (C30_mean qs h0' j).1, h.length_eq, (h.map _).sum_eq]
  · cases n with
    | zero =>
      cases ps with
      | nil => exact absurd rfl h0
      | cons p ps => cases qs with
        | nil => exact absurd rfl h0'
        | cons q qs =>
          have e : ∀ l : List (Pt 0), (l.all (·.valid) = true ↔ ∀ p ∈ l, p.valid = true) := by simp
          simp only [Pt.barycenter, bLoop_eq]
          rw [Bool.eq_iff_iff]
          change ((p :: ps).all (·.valid) = true) ↔ ((q :: qs).all (·.valid) = true)
          rw [e, e]
          exact ⟨fun H p hp => H p (h.mem_iff.2 hp), fun H p hp => H p (h.mem_iff.1 hp)⟩
    | succ n =>
      rw [Bool.eq_iff_iff, (C30_mean ps h0 0).2, (C30_mean qs h0' 0).2]
      exact ⟨fun H p hp => H p (h.mem_iff.2 hp), fun H p hp => H p (h.mem_iff.1 hp)⟩

/-- C30: moving all the points by a vector moves the barycenter by it. -/
theorem C30_translate (ps : List (Pt n)) (h : ps ≠ []) (v : Vec n) :
    (Pt.barycenter (ps.map (·.addVec v))).elem = (Pt.barycenter ps).elem + v.elem := by
  funext j
  have hl : (0 : ℝ) < ps.length := by exact_mod_cast List.length_pos_of_ne_nil h
  rw [Pi.add_apply, (C30_mean _ (by simpa using h) j).1, (C30_mean ps h j).1, List.map_map, List.length_map]
  have : ∀ l : List (Pt n), (l.map ((fun p => p.elem j) ∘ (·.addVec v))).sum = (l.map fun p => p.elem j).sum + l.length * v.elem j := by
    intro l; induction l with
    | nil => simp
    | cons a l ih => simp only [List.map_cons, List.sum_cons, ih, Function.comp_apply, Pt.addVec_elem, Pi.add_apply, List.length_cons]; push_cast; ring
  rw [this]
  field_simp

theorem wLoop_eq (ps : List (Pt n)) (ws : List ℝ) (tot mx : ℝ) (ok : Bool) (out : Fin n → ℝ) :
    Pt.wLoop (tot, mx, ok, out) ps ws =
      (tot + ((ps.zip ws).map (·.2)).sum, (((ps.zip ws).map fun x => |x.2|).foldl max mx), ok && (ps.zip ws).all (·.1.valid),
        fun j => out j + ((ps.zip ws).map fun x => x.1.elem j * x.2).sum) := by
  induction ps generalizing tot mx ok out ws with
  | nil => simp [Pt.wLoop]
  | cons p ps ih =>
    cases ws with
    | nil => simp [Pt.wLoop]
    | cons w ws =>
      rw [Pt.wLoop, ih]
      simp only [List.zip_cons_cons, List.map_cons, List.sum_cons, List.all_cons, List.foldl_cons]
      refine Prod.ext (by simp only; ring) (Prod.ext ?_ (Prod.ext (by simp only [Bool.and_assoc]) (by funext j; simp only; ring)))
      simp only
      congr 1
      by_cases h : |w| > mx
      · rw [if_pos h, max_eq_right h.le]
      · rw [if_neg h, max_eq_left (not_lt.1 h)]

theorem foldl_max_spec (l : List ℝ) (m : ℝ) : m ≤ l.foldl max m ∧ (∀ x ∈ l, x ≤ l.foldl max m) ∧
    (l.foldl max m = m ∨ l.foldl max m ∈ l) := by
  induction l generalizing m with
  | nil => simp
  | cons a l ih =>
    obtain ⟨h1, h2, h3⟩ := ih (max m a)
    simp only [List.foldl_cons, List.mem_cons]
    refine ⟨(le_max_left _ _).trans h1, ?_, ?_⟩
    · rintro x (rfl | hx)
      · exact (le_max_right _ _).trans h1
      · exact h2 x hx
    · rcases h3 with h3 | h3
      · rcases max_choice m a with e | e
        · exact Or.inl (h3.trans e)
        · exact Or.inr (Or.inl (h3.trans e))
      · exact Or.inr (Or.inr h3)

/-- C30, weights: if the total weight is more than `ε` times the largest absolute weight, the weighted barycenter is the
weighted mean (pairing points and weights in order, as many as the shorter list has), valid when those points are. -/
theorem C30_weighted (ps : List (Pt n)) (ws : List ℝ) (M : ℝ) (hM : ∃ w ∈ (ps.zip ws).map (·.2), |w| = M)
    (hmax : ∀ w ∈ (ps.zip ws).map (·.2), |w| ≤ M) (hT : M * epsilon < |((ps.zip ws).map (·.2)).sum|) :
    (∀ j, (Pt.barycenterW ps ws).elem j =
        ((ps.zip ws).map fun x => x.2 * x.1.elem j).sum / ((ps.zip ws).map (·.2)).sum) ∧
    ((Pt.barycenterW ps ws).valid = true ↔ ∀ x ∈ ps.zip ws, x.1.valid = true) := by
  cases ps with
  | nil => simp at hM
  | cons p ps =>
    cases ws with
    | nil => simp at hM
    | cons w ws =>
      have he := epsilon_pos
      have hm : ((ps.zip ws).map fun x => |x.2|).foldl max |w| = M := by
        obtain ⟨h1, h2, h3⟩ := foldl_max_spec ((ps.zip ws).map fun x => |x.2|) |w|
        apply le_antisymm
        · rcases h3 with h3 | h3
          · rw [h3]; exact hmax w (by simp)
          · rw [List.mem_map] at h3
            obtain ⟨x, hx, h3⟩ := h3
            rw [← h3]; exact hmax x.2 (by
              simp only [List.zip_cons_cons, List.map_cons, List.mem_cons, List.mem_map]
              exact Or.inr ⟨x, hx, rfl⟩)
        · obtain ⟨w', hw', rfl⟩ := hM
          simp only [List.zip_cons_cons, List.map_cons, List.mem_cons, List.mem_map] at hw'
          rcases hw' with rfl | ⟨x, hx, rfl⟩
          · exact h1
          · exact h2 _ (by rw [List.mem_map]; exact ⟨x, hx, rfl⟩)
      have hM0 : ¬ M ≤ 0 := by
        intro hle
        have hz : M = 0 := le_antisymm hle (by rw [← hm]; exact (abs_nonneg w).trans (foldl_max_spec _ _).1)
        have : ((((p :: ps).zip (w :: ws)).map (·.2)).sum) = 0 := by
          apply List.sum_eq_zero
          intro x hx
          have := hmax x hx
          rw [hz] at this
          exact abs_eq_zero.1 (le_antisymm this (abs_nonneg _))
        rw [this, hz] at hT; simp at hT
      simp only [Pt.barycenterW, wLoop_eq, hm]
      simp only [List.zip_cons_cons, List.map_cons, List.sum_cons] at hT ⊢
      rw [if_neg (by push Not; exact ⟨not_le.1 hM0, hT⟩)]
      constructor
      · intro j
        simp only
        congr 1
        rw [mul_comm]
        congr 2
        exact List.map_congr_left fun x _ => mul_comm _ _
      · simp

/-- C30, weights: otherwise (all weights zero, or cancelling up to tolerance) the result is invalid. -/
theorem C30_weighted_refused (ps : List (Pt n)) (ws : List ℝ) (M : ℝ) (hM : ∃ w ∈ (ps.zip ws).map (·.2), |w| = M)
    (hT : |((ps.zip ws).map (·.2)).sum| ≤ M * epsilon) : (Pt.barycenterW ps ws).valid = false := by
  cases ps with
  | nil => cases ws <;> rfl
  | cons p ps =>
    cases ws with
    | nil => rfl
    | cons w ws =>
      obtain ⟨h1, h2, h3⟩ := foldl_max_spec ((ps.zip ws).map fun x => |x.2|) |w|
      simp only [Pt.barycenterW, wLoop_eq]
      simp only [List.zip_cons_cons, List.map_cons, List.sum_cons] at hT ⊢
      rw [if_pos]
      right
      have he := epsilon_pos
      obtain ⟨w', hw', rfl⟩ := hM
      refine hT.trans (mul_le_mul_of_nonneg_right ?_ he.le)
      simp only [List.zip_cons_cons, List.map_cons, List.mem_cons, List.mem_map] at hw'
      rcases hw' with rfl | ⟨x, hx, rfl⟩
      · exact h1
      · exact h2 _ (by rw [List.mem_map]; exact ⟨x, hx, rfl⟩)

/-- C30, weights: equal nonzero weights give the barycenter. -/
theorem C30_equal_weights (ps : List (Pt n)) (c : ℝ) (hc : c ≠ 0) (h : ps ≠ []) :
    Pt.barycenterW ps (List.replicate ps.length c) = Pt.barycenter ps := by
  have he2 := epsilon_lt
  norm_num at he2
  have hl : (1 : ℝ) ≤ ps.length := by exact_mod_cast List.length_pos_of_ne_nil h
  have hz : ps.zip (List.replicate ps.length c) = ps.map fun p => (p, c) := by
    clear h hl; induction ps with
    | nil => rfl
    | cons p ps ih => rw [List.length_cons, List.replicate_succ, List.zip_cons_cons, ih, List.map_cons]
  have hs : ((ps.zip (List.replicate ps.length c)).map (·.2)) = List.replicate ps.length c := by
    rw [hz, List.map_map]; simp [Function.comp_def]
  have hsum : ((ps.zip (List.replicate ps.length c)).map (·.2)).sum = ps.length * c := by
    rw [hs, List.sum_replicate, nsmul_eq_mul]
  have hcp : 0 < |c| := abs_pos.2 hc
  have key := C30_weighted ps (List.replicate ps.length c) |c|
    ⟨c, by rw [hs]; simpa using fun e => h e, rfl⟩
    (by rw [hs]; intro w hw; rw [List.eq_of_mem_replicate hw])
    (by rw [hsum, abs_mul, abs_of_pos (by linarith : (0 : ℝ) < ps.length)]; nlinarith)
  have hval : (Pt.barycenterW ps (List.replicate ps.length c)).valid = (Pt.barycenter ps).valid := by
    rw [Bool.eq_iff_iff, key.2, hz]
    cases ps with
    | nil => exact absurd rfl h
    | cons p ps => simp [Pt.barycenter, bLoop_eq]
  ext j
  · rw [key.1 j, (C30_mean ps h j).1, hsum, hz, List.map_map]
    have : ((fun x : Pt n × ℝ => x.2 * x.1.elem j) ∘ fun p => (p, c)) = fun p => c * p.elem j := rfl
    rw [this, List.sum_map_mul_left]
    field_simp
  · rw [hval]

/-- C30, weights: multiplying all the weights by the same nonzero number changes nothing. -/
theorem C30_proportional (ps : List (Pt n)) (ws : List ℝ) (c M : ℝ) (hc : c ≠ 0) (hM : ∃ w ∈ (ps.zip ws).map (·.2), |w| = M)
    (hmax : ∀ w ∈ (ps.zip ws).map (·.2), |w| ≤ M) (hT : M * epsilon < |((ps.zip ws).map (·.2)).sum|) :
    Pt.barycenterW ps (ws.map (c * ·)) = Pt.barycenterW ps ws := by
  have hcp : 0 < |c| := abs_pos.2 hc
  have hz : ps.zip (ws.map (c * ·)) = (ps.zip ws).map fun x => (x.1, c * x.2) := by
    rw [List.zip_map_right]; rfl
  have hs : ((ps.zip (ws.map (c * ·))).map (·.2)) = ((ps.zip ws).map (·.2)).map (c * ·) := by
    rw [hz, List.map_map, List.map_map]; rfl
  have hsum : ((ps.zip (ws.map (c * ·))).map (·.2)).sum = c * ((ps.zip ws).map (·.2)).sum := by
    rw [hs]
    generalize (ps.zip ws).map (·.2) = l
    induction l with
    | nil => simp
    | cons a l ih => rw [List.map_cons, List.sum_cons, ih, List.sum_cons, mul_add]
  have k1 := C30_weighted ps ws M hM hmax hT
  have k2 := C30_weighted ps (ws.map (c * ·)) (|c| * M)
    (by obtain ⟨w, hw, rfl⟩ := hM
        exact ⟨c * w, by rw [hs]; exact List.mem_map_of_mem hw, abs_mul _ _⟩)
    (by rw [hs]; intro w hw
        obtain ⟨w', hw', rfl⟩ := List.mem_map.1 hw
        simp only [abs_mul]
        exact mul_le_mul_of_nonneg_left (hmax w' hw') hcp.le)
    (by rw [hsum, abs_mul, mul_assoc]; exact mul_lt_mul_of_pos_left hT hcp)
  ext j
  · rw [k1.1 j, k2.1 j, hsum, hz, List.map_map]
    have : ((fun x : Pt n × ℝ => x.2 * x.1.elem j) ∘ fun x => (x.1, c * x.2)) = fun x : Pt n × ℝ => c * (x.2 * x.1.elem j) := by
      funext x; simp only [Function.comp_apply]; ring
    rw [this, List.sum_map_mul_left, mul_div_mul_left _ _ hc]
  · rw [Bool.eq_iff_iff, k1.2, k2.2, hz]
    simp only [List.mem_map]
    exact ⟨fun H x hx => H (x.1, c * x.2) ⟨x, hx, rfl⟩, by rintro H _ ⟨x, hx, rfl⟩; exact H x hx⟩

/-- The hypotheses of the weighted theorem hold for two points with weights 1 and 3. -/
example (p q : Pt 2) : (Pt.barycenterW [p, q] [1, 3]).elem = fun j => (p.elem j + 3 * q.elem j) / 4 := by
  have he2 := epsilon_lt
  norm_num at he2
  have := C30_weighted [p, q] [1, 3] 3 ⟨3, by simp, by norm_num⟩ (by simp) (by simp; norm_num; linarith)
  funext j
  rw [this.1 j]
  simp
  norm_num

/-- The hypotheses of the refusal hold for weights 1 and -1. -/
example (p q : Pt 2) : (Pt.barycenterW [p, q] [1, -1]).valid = false :=
  C30_weighted_refused _ _ 1 ⟨1, by simp, by simp⟩ (by have he := epsilon_pos; simp; exact he.le)

/-! ### C31 coordinate changes of points -/

/-- C31, matrices: the two coordinate changes invert each other exactly. -/
theorem C31_matrix (x o : Pt n) (m : RotMat n) (h : IsRotation m) :
    ((x.toParent o m).toLocal o m).elem = x.elem ∧ ((x.toLocal o m).toParent o m).elem = x.elem ∧
    ((x.toParent o m).valid = true ↔ x.valid = true ∧ o.valid = true ∧ m.valid = true) ∧
    ((x.toLocal o m).valid = true ↔ x.valid = true ∧ o.valid = true ∧ m.valid = true) := by
  unfold Pt.toParent Pt.toLocal
  refine ⟨?_, ?_, ?_, ?_⟩
  · simp only [Pt.addVec_elem, Pt.sub_elem, Pt.origin_elem, RotMat.mulVec_elem, RotMat.rotateM_elem, sub_zero, zero_add, add_sub_cancel_left]
    rw [← mulVec_transpose, mulVec_mulVec, h.orth, one_mulVec]
  · simp only [Pt.addVec_elem, Pt.sub_elem, Pt.origin_elem, RotMat.mulVec_elem, RotMat.rotateM_elem, sub_zero, zero_add]
    rw [← mulVec_transpose, mulVec_mulVec, h.orth', one_mulVec, add_sub_cancel]
  · simp; tauto
  · simp; tauto

/-- C31, matrices: distances between points are preserved. -/
theorem C31_matrix_distance (x y o : Pt n) (m : RotMat n) (h : IsRotation m) :
    ((x.toParent o m).sub (y.toParent o m)).mag = (x.sub y).mag ∧
    ((x.toLocal o m).sub (y.toLocal o m)).mag = (x.sub y).mag := by
  have key : ∀ (u v : Vec n) (A : Matrix (Fin n) (Fin n) ℝ), A.transpose * A = 1 → u.elem = A *ᵥ v.elem → u.mag = v.mag := by
    intro u v A hA e
    unfold Vec.mag
    rw [Vec.sqrMag_eq, Vec.sqrMag_eq, e, dotProduct_mulVec, ← mulVec_transpose, mulVec_mulVec, hA, one_mulVec]
  constructor
  · refine key _ _ m.elemᵀ (by rw [transpose_transpose, h.orth]) ?_
    simp only [Pt.toParent, Pt.addVec_elem, Pt.sub_elem, Pt.origin_elem, RotMat.rotateM_elem, sub_zero]
    rw [← mulVec_transpose, ← mulVec_transpose, mulVec_sub]; abel
  · refine key _ _ m.elem h.orth' ?_
    simp only [Pt.toLocal, Pt.addVec_elem, Pt.sub_elem, Pt.origin_elem, RotMat.mulVec_elem, zero_add]
    rw [mulVec_sub, mulVec_sub, mulVec_sub]; abel

/-- C31, quaternions, when no product is flushed to 0. -/
theorem C31_quaternion (x o : Pt 3) (q : Quat) (hq : ‖toH q‖ = 1)
    (h1 : RotExact (x.sub Pt.origin) q) (h2 : RotExact ((x.sub Pt.origin).rotateQ q) q.inverse)
    (h3 : RotExact (x.sub o) q.inverse) (h4 : RotExact ((x.sub o).rotateQ q.inverse) q) :
    ((x.toParentQ o q).toLocalQ o q).elem = x.elem ∧ ((x.toLocalQ o q).toParentQ o q).elem = x.elem := by
  have hi : ‖toH q.inverse‖ = 1 := by rw [toH_inverse, norm_star, hq]
  have hq' := normSq_eq_one.2 hq
  have hcong : ∀ (u v : Vec 3) (r : Quat), u.elem = v.elem → RotExact v r → RotExact u r := by
    rintro ⟨a, b⟩ ⟨c, d⟩ r rfl h; exact h
  unfold Pt.toParentQ Pt.toLocalQ
  constructor
  · rw [Pt.addVec_elem, rotateQ_exact hi (hcong _ ((x.sub Pt.origin).rotateQ q) _ (by simp) h2)]
    simp only [Pt.sub_elem, Pt.addVec_elem, add_sub_cancel_left, Pt.origin_elem, zero_add]
    rw [rotateQ_exact hq h1, toH_inverse, act_star_act hq']; simp
  · rw [Pt.addVec_elem, rotateQ_exact hq (hcong _ ((x.sub o).rotateQ q.inverse) _ (by simp) h4)]
    simp only [Pt.sub_elem, Pt.addVec_elem, Pt.origin_elem, zero_add, sub_zero]
    rw [rotateQ_exact hi h3, toH_inverse]
    have := act_star_act (h := star (toH q)) (by rw [normSq_star]; exact hq') (x.sub o).elem
    rw [star_star] at this
    rw [this]; simp

/-- C31, quaternions in general: the round trips are off by at most `33 ε` times the distance to the origin concerned. -/
theorem C31_quaternion_error (x o : Pt 3) (q : Quat) (hq : ‖toH q‖ = 1) :
    len (((x.toParentQ o q).toLocalQ o q).elem - x.elem) ≤ 33 * epsilon * (x.sub Pt.origin).mag ∧
    len (((x.toLocalQ o q).toParentQ o q).elem - x.elem) ≤ 33 * epsilon * (x.sub o).mag := by
  have hi : ‖toH q.inverse‖ = 1 := by rw [toH_inverse, norm_star, hq]
  have hq' := normSq_eq_one.2 hq
  have hcong : ∀ (u v : Vec 3) (r : Quat), u.elem = v.elem → (u.rotateQ r).elem = (v.rotateQ r).elem := by
    rintro ⟨a, b⟩ ⟨c, d⟩ r rfl; rfl
  constructor
  · have h := rotateQ_twice (v := x.sub Pt.origin) hq hi
    rw [toH_inverse, star_mul_unit hq', act_one] at h
    have e : ((x.toParentQ o q).toLocalQ o q).elem = (((x.sub Pt.origin).rotateQ q).rotateQ q.inverse).elem := by
      unfold Pt.toParentQ Pt.toLocalQ
      rw [Pt.addVec_elem, hcong _ ((x.sub Pt.origin).rotateQ q) q.inverse (by simp)]; simp
    rw [e]
    simpa using h
  · have h := rotateQ_twice (v := x.sub o) hi hq
    have hs : toH q * toH q.inverse = 1 := by
      have := star_mul_unit (h := star (toH q)) (by rw [normSq_star]; exact hq')
      rwa [star_star, ← toH_inverse] at this
    rw [hs, act_one] at h
    have e : ((x.toLocalQ o q).toParentQ o q).elem = o.elem + (((x.sub o).rotateQ q.inverse).rotateQ q).elem := by
      unfold Pt.toParentQ Pt.toLocalQ
      rw [Pt.addVec_elem, hcong _ ((x.sub o).rotateQ q.inverse) q (by simp)]
    rw [e]
    have e2 : o.elem + (((x.sub o).rotateQ q.inverse).rotateQ q).elem - x.elem =
        (((x.sub o).rotateQ q.inverse).rotateQ q).elem - (x.sub o).elem := by rw [Pt.sub_elem]; abel
    rw [e2]; exact h

/-- C31, quaternions: distances are preserved, exactly or with the error of the two rotations. -/
theorem C31_quaternion_distance (x y o : Pt 3) (q : Quat) (hq : ‖toH q‖ = 1) :
    (RotExact (x.sub Pt.origin) q → RotExact (y.sub Pt.origin) q →
      ((x.toParentQ o q).sub (y.toParentQ o q)).mag = (x.sub y).mag) ∧
    |((x.toParentQ o q).sub (y.toParentQ o q)).mag - (x.sub y).mag| ≤
      16 * epsilon * ((x.sub Pt.origin).mag + (y.sub Pt.origin).mag) := by
  have hq' := normSq_eq_one.2 hq
  have hxy : act (toH q) (x.sub Pt.origin).elem - act (toH q) (y.sub Pt.origin).elem = act (toH q) (x.sub y).elem := by
    rw [← act_sub hq']; simp
  have e0 : ((x.toParentQ o q).sub (y.toParentQ o q)).elem =
      ((x.sub Pt.origin).rotateQ q).elem - ((y.sub Pt.origin).rotateQ q).elem := by
    simp only [Pt.toParentQ, Pt.sub_elem, Pt.addVec_elem]; abel
  have hl : len (act (toH q) (x.sub y).elem) = (x.sub y).mag := by rw [len_act hq']; rfl
  constructor
  · intro hx hy
    rw [mag_eq_len, e0, rotateQ_exact hq hx, rotateQ_exact hq hy, hxy, hl]
  · have h1 := rotateQ_len (v := x.sub Pt.origin) hq
    have h2 := rotateQ_len (v := y.sub Pt.origin) hq
    have e : ((x.toParentQ o q).sub (y.toParentQ o q)).elem =
        act (toH q) (x.sub y).elem + ((((x.sub Pt.origin).rotateQ q).elem - act (toH q) (x.sub Pt.origin).elem)
          - (((y.sub Pt.origin).rotateQ q).elem - act (toH q) (y.sub Pt.origin).elem)) := by
      rw [e0, ← hxy]; abel
    have h3 := len_sub_le (((x.sub Pt.origin).rotateQ q).elem - act (toH q) (x.sub Pt.origin).elem)
      (((y.sub Pt.origin).rotateQ q).elem - act (toH q) (y.sub Pt.origin).elem)
    rw [mag_eq_len, e, ← hl]
    generalize (((x.sub Pt.origin).rotateQ q).elem - act (toH q) (x.sub Pt.origin).elem)
      - (((y.sub Pt.origin).rotateQ q).elem - act (toH q) (y.sub Pt.origin).elem) = d at *
    generalize act (toH q) (x.sub y).elem = a at *
    have h4 := len_add_le a d
    have h5 := len_sub_le (a + d) d
    rw [add_sub_cancel_right] at h5
    rw [abs_le]
    constructor <;> linarith

/-- A rotation matrix, and a quaternion with a point, meeting the hypotheses. -/
example : IsRotation (RotMat.identity : RotMat 3) ∧
    (let q : Quat := ⟨0, ⟨![1, 0, 0], true⟩, true, 1⟩
     let x : Pt 3 := ⟨![0, 1, 0], true⟩
     ‖toH q‖ = 1 ∧ RotExact (x.sub Pt.origin) q) := by
  refine ⟨isRotation_identity, ?_, ?_⟩
  · rw [← normSq_eq_one, normSq_def']; simp
  · have he2 := epsilon_lt
    have he := epsilon_pos
    norm_num at he2
    have hm : ∀ v : Fin 3 → ℝ, min (maxAbs ![1, 0, 0]) (maxAbs v) ≤ 1 := fun v =>
      (min_le_left _ _).trans (maxAbs_le (by norm_num) fun i => by fin_cases i <;> simp)
    refine ⟨dotExact_of (Or.inl (by simp [dot3])), crossExact_of fun i => ?_⟩
    fin_cases i
    · left; simp [cross_apply]
    · left; simp [cross_apply]
    · right
      simp [cross_apply]
      have := hm ![0, 1, 0]
      simp only [Nat.succ_eq_add_one, Nat.reduceAdd] at this
      nlinarith

/-! ### C32 squared distance -/

/-- C32: symmetric, nonnegative, zero for points with equal coordinates, and either exact or (when the true value is
below the scaled epsilon) zero. -/
theorem C32_sqDist (p q : Pt n) :
    p.sqDist q = q.sqDist p ∧ 0 ≤ p.sqDist q ∧ (p.elem = q.elem → p.sqDist q = 0) ∧
    (p.sqDist q = (p.sub q).sqrMag ∨ (p.sqDist q = 0 ∧ (p.sub q).sqrMag < scaleEpsilonArr p.elem q.elem epsilon)) := by
  have e : ∀ p q : Pt n, ∑ i, (p.elem i - q.elem i) * (p.elem i - q.elem i) = (p.sub q).sqrMag := by
    intro p q; rw [Vec.sqrMag_eq]; rfl
  have hs : (q.sub p).sqrMag = (p.sub q).sqrMag := by
    rw [Vec.sqrMag_eq, Vec.sqrMag_eq, Pt.sub_elem, Pt.sub_elem, ← neg_sub p.elem q.elem, neg_dotProduct_neg]
  have hn := Vec.sqrMag_nonneg (p.sub q)
  unfold Pt.sqDist
  simp only [e]
  rw [scaleEpsilonArr_symm q.elem, hs, abs_of_nonneg hn]
  refine ⟨rfl, ?_, fun h => ?_, ?_⟩
  · split_ifs
    · exact hn
    · exact le_rfl
  · have : (p.sub q).sqrMag = 0 := Vec.sqrMag_eq_zero.2 (by rw [Pt.sub_elem, h, sub_self])
    rw [this, ite_self]
  · split_ifs with h
    · exact Or.inl rfl
    · exact Or.inr ⟨rfl, not_le.1 h⟩

/-- C32: hence the error is at most `2 ε` times the largest coordinate of the point nearer the origin. -/
theorem C32_error (p q : Pt n) (hp : p.elem ≠ 0) (hq : q.elem ≠ 0) :
    p.sqDist q ≤ (p.sub q).sqrMag ∧ (p.sub q).sqrMag ≤ p.sqDist q + 2 * epsilon * min (maxAbs p.elem) (maxAbs q.elem) := by
  have he := epsilon_pos
  have hn := Vec.sqrMag_nonneg (p.sub q)
  have h1 := scaleEpsilonArr_le he.le hp hq
  have h0 := scaleEpsilonArr_nonneg (x := p.elem) (y := q.elem) he.le
  rcases (C32_sqDist p q).2.2.2 with h | ⟨h, h'⟩ <;> rw [h] <;> constructor <;> linarith

/-- C32: the distance is the length of the difference vector under the same condition. -/
theorem C32_dist (p q : Pt n) : p.dist q = q.dist p ∧ 0 ≤ p.dist q ∧
    (scaleEpsilonArr p.elem q.elem epsilon ≤ (p.sub q).sqrMag → p.dist q = (p.sub q).mag) := by
  unfold Pt.dist
  refine ⟨by rw [(C32_sqDist p q).1], Real.sqrt_nonneg _, fun h => ?_⟩
  rcases (C32_sqDist p q).2.2.2 with h' | ⟨-, h'⟩
  · rw [h']; rfl
  · exact absurd h (not_le.2 h')

example : (⟨![3, 0], true⟩ : Pt 2).sqDist ⟨![0, 4], true⟩ = 25 := by
  have he2 := epsilon_lt
  have he := epsilon_pos
  norm_num at he2
  have hs : ((⟨![3, 0], true⟩ : Pt 2).sub ⟨![0, 4], true⟩).sqrMag = 25 := by
    rw [Vec.sqrMag_eq]; simp [dotProduct, Fin.sum_univ_two]; norm_num
  rcases (C32_sqDist (⟨![3, 0], true⟩ : Pt 2) ⟨![0, 4], true⟩).2.2.2 with h | ⟨-, h⟩
  · rw [h, hs]
  · exfalso
    have h1 := scaleEpsilonArr_le (x := (![3, 0] : Fin 2 → ℝ)) (y := ![0, 4]) he.le
      (fun e => by simpa using congrFun e 0) (fun e => by simpa using congrFun e 1)
    have h2 : min (maxAbs (![3, 0] : Fin 2 → ℝ)) (maxAbs (![0, 4] : Fin 2 → ℝ)) ≤ 3 :=
      (min_le_left _ _).trans (maxAbs_le (by norm_num) fun i => by fin_cases i <;> simp)
    rw [hs] at h
    simp only at h
    nlinarith

end WFMath
