/- Cases for C156: the unit square against rotated boxes in floating point. -/
import Verif.Props.RoundPolyRBox
import Verif.Cases.RotatedRounding

namespace WFMath.Cases
open WFMath Spec Matrix Rounding

/-- A box with corner (1/2, 1/4) and sides 1/4 and 1/8 along (3/5, 4/5) and (-4/5, 3/5), rounded: it is in the middle of the unit square. -/
noncomputable def small35 (r : Rounding 53) : RBox 2 := ⟨⟨![1 / 2, 1 / 4], true⟩, ⟨![1 / 4, 1 / 8], true⟩, Fl.turn35 r⟩

theorem memSmall (x : Fin 2 → ℝ) (d : ℝ) : x ∈ turnedBox ![1 / 2, 1 / 4] ![1 / 4, 1 / 8] R35 d ↔
    (-d ≤ 3 / 5 * (x 0 - 1 / 2) + 4 / 5 * (x 1 - 1 / 4) ∧ 3 / 5 * (x 0 - 1 / 2) + 4 / 5 * (x 1 - 1 / 4) ≤ 1 / 4 + d) ∧
    (-d ≤ -4 / 5 * (x 0 - 1 / 2) + 3 / 5 * (x 1 - 1 / 4) ∧ -4 / 5 * (x 0 - 1 / 2) + 3 / 5 * (x 1 - 1 / 4) ≤ 1 / 8 + d) := by
  show (∀ i, _) ↔ _
  rw [mul35, Fin.forall_fin_two]
  simp

theorem turnedCorner2 (c s : Fin 2 → ℝ) (i : Nat) : turnedCorner c s R35 i =
    ![c 0 + ((if i.testBit 0 then s 0 * (3 / 5) else 0) + if i.testBit 1 then s 1 * (-4 / 5) else 0),
      c 1 + ((if i.testBit 0 then s 0 * (4 / 5) else 0) + if i.testBit 1 then s 1 * (3 / 5) else 0)] := by
  funext k
  fin_cases k <;> simp [turnedCorner, R35, Fin.sum_univ_two]

theorem far_coord {x y : Fin 2 → ℝ} {d : ℝ} (k : Fin 2) (h : d < |x k - y k|) : d < eucl x y := by
  rw [eucl_eq_len]
  exact lt_of_lt_of_le h (abs_le_len (x - y) k)

theorem half_fl : ∀ i : Fin 2, IsFl 53 ((![1 / 2, 1 / 4] : Fin 2 → ℝ) i) := by
  intro i
  fin_cases i
  · exact ⟨1, -1, by norm_num, by norm_num⟩
  · exact ⟨1, -2, by norm_num, by norm_num⟩

/-- C156_rotbox: the unit square contains the box, and the two intersect. -/
example (r : Rounding 53) (proper : Bool) : Fl.containsPolyR r unitSquare (small35 r) proper = some true ∧ Fl.interPolyR r unitSquare (small35 r) proper = some true := by
  have hcor : ∀ c ∈ unitSquare, c.elem ∉ turnedBox (small35 r).corner.elem (small35 r).size.elem R35 (2 * (13 * 2 ^ (-52 : ℤ) + 2 ^ (-50 : ℤ)) * 2) := by
    intro c hc
    show c.elem ∉ turnedBox ![1 / 2, 1 / 4] ![1 / 4, 1 / 8] R35 _
    rw [memSmall]
    simp only [unitSquare, List.mem_cons, List.not_mem_nil, or_false] at hc
    rcases hc with rfl | rfl | rfl | rfl <;> norm_num
  obtain ⟨h1, -, h3, -, -⟩ := C156_rotbox r unitSquare (small35 r) proper R35 (13 * 2 ^ (-52 : ℤ)) 2 hR35 (by norm_num) (by norm_num) (hm12 r) half_fl
    ((len2 _).trans (by norm_num [small35])) ((len2 _).trans (by norm_num [small35])) (fun c hc => by
      simp only [unitSquare, List.mem_cons, List.not_mem_nil, or_false] at hc
      rcases hc with rfl | rfl | rfl | rfl <;> exact (eucl2 _ _).trans (by norm_num [small35, abs_of_nonneg, abs_of_neg])) (by simp [unitSquare]) (fun i hi x hx => by
      rw [turnedCorner2]
      have hb := (unitSquare_boundary hx).1
      have : ((2 : ℝ) ^ (-47 : ℤ) + (2 * (13 * 2 ^ (-52 : ℤ)) + 2 ^ (-43 : ℤ)) * 2) < 1 / 8 := by norm_num
      refine lt_trans this ?_
      clear this
      interval_cases i <;> rcases hb with h | h | h | h <;> simp [small35, Nat.testBit] <;>
        first
        | exact far_coord 0 (by rw [h]; norm_num [abs_of_nonneg, abs_of_neg])
        | exact far_coord 1 (by rw [h]; norm_num [abs_of_nonneg, abs_of_neg])) (fun c hc h => absurd h (hcor c hc))
  have hin : ∀ {d : ℝ}, d ≤ 1 / 100 → turnedBox ![1 / 2, 1 / 4] ![1 / 4, 1 / 8] R35 d ⊆ inside unitSquare := by
    intro d hd x hx
    rw [memSmall] at hx
    exact unitSquare_inside (by linarith) (by linarith) (by linarith) (by linarith)
  have hx : (![21 / 40, 31 / 80] : Fin 2 → ℝ) ∈ turnedBox ![1 / 2, 1 / 4] ![1 / 4, 1 / 8] R35 (-(2 * (13 * 2 ^ (-52 : ℤ) + 2 ^ (-50 : ℤ)) * 2)) := by
    rw [memSmall]; norm_num
  exact ⟨h1 (hin (by norm_num)), (h3 ⟨_, List.mem_cons_self, hcor _ List.mem_cons_self⟩).1 ⟨_, .inl (hin (by norm_num) hx), hx⟩⟩

theorem box_bound {ps : Corners 2} {k : Fin 2} {a b : ℝ} (h : ∀ c ∈ ps, a ≤ c.elem k ∧ c.elem k ≤ b) {x : Fin 2 → ℝ} (hx : x ∈ boundary ps) : a ≤ x k ∧ x k ≤ b := by
  obtain ⟨e, he, hs⟩ := hx
  obtain ⟨⟨c1, hc1, e1⟩, c2, hc2, e2⟩ := mem_sides he
  obtain ⟨s, s0, s1, rfl⟩ := mem_seg.1 hs
  have h1 := h c1 hc1
  have h2 := h c2 hc2
  rw [e1, e2]
  simp only [Pi.add_apply, Pi.smul_apply, smul_eq_mul]
  constructor <;> nlinarith

/-- C156_rotbox: a triangle inside the box of `rb35` is not found by `Intersect`, and it does not contain the box. -/
example (r : Rounding 53) (proper : Bool) :
    Fl.interPolyR r [⟨![5 / 4, 2], true⟩, ⟨![5 / 4, 7 / 4], true⟩, ⟨![3 / 2, 2], true⟩] (rb35 r) proper = some false ∧
    Fl.containsPolyR r [⟨![5 / 4, 2], true⟩, ⟨![5 / 4, 7 / 4], true⟩, ⟨![3 / 2, 2], true⟩] (rb35 r) proper = some false := by
  generalize hps : ([⟨![5 / 4, 2], true⟩, ⟨![5 / 4, 7 / 4], true⟩, ⟨![3 / 2, 2], true⟩] : Corners 2) = ps
  have hmem : ∀ c ∈ ps, c = ⟨![5 / 4, 2], true⟩ ∨ c = ⟨![5 / 4, 7 / 4], true⟩ ∨ c = ⟨![3 / 2, 2], true⟩ := by
    subst hps; intro c hc; simpa using hc
  have hins : ∀ c ∈ ps, c.elem ∈ turnedInterior (rb35 r).corner.elem (rb35 r).size.elem R35 (-(2 * (13 * 2 ^ (-52 : ℤ) + 2 ^ (-50 : ℤ)) * 4)) := by
    intro c hc
    refine (memI35 _ _).2 ?_
    rcases hmem c hc with rfl | rfl | rfl <;> norm_num
  have hb0 : ∀ x ∈ boundary ps, 5 / 4 ≤ x 0 ∧ x 0 ≤ 3 / 2 := fun x => box_bound fun c hc => by rcases hmem c hc with rfl | rfl | rfl <;> norm_num
  have hb1 : ∀ x ∈ boundary ps, 7 / 4 ≤ x 1 ∧ x 1 ≤ 2 := fun x => box_bound fun c hc => by rcases hmem c hc with rfl | rfl | rfl <;> norm_num
  obtain ⟨-, h2, -, h4, ⟨u, v, hu, hv⟩⟩ := C156_rotbox r ps (rb35 r) proper R35 (13 * 2 ^ (-52 : ℤ)) 4 hR35 (by norm_num) (by norm_num) (hm12 r)
    (fun i => by fin_cases i <;> exact IsFl.one Fl.pos53)
    (len_c.trans (by norm_num)) (len_s.trans (by norm_num)) (fun c hc => by
      rcases hmem c hc with rfl | rfl | rfl <;> exact (eucl2 _ _).trans (by norm_num [rb35, abs_of_nonneg])) (by subst hps; simp) (fun i hi x hx => by
      rw [turnedCorner2]
      have a := hb0 x hx
      have c := hb1 x hx
      have : ((2 : ℝ) ^ (-47 : ℤ) + (2 * (13 * 2 ^ (-52 : ℤ)) + 2 ^ (-43 : ℤ)) * 4) < 1 / 8 := by norm_num
      refine lt_trans this ?_
      clear this
      interval_cases i <;> simp [rb35, Nat.testBit] <;>
        first
        | exact far_coord 0 (by rw [lt_abs]; norm_num; left; linarith)
        | exact far_coord 0 (by rw [lt_abs]; norm_num; right; linarith)
        | exact far_coord 1 (by rw [lt_abs]; norm_num; right; linarith)) (fun c hc _ => hins c hc)
  refine ⟨h4 hins, ?_⟩
  rw [hv]
  cases v
  · rfl
  · exfalso
    have hx : (![5 / 4, 7 / 4] : Fin 2 → ℝ) ∈ turnedBox ![1, 1] ![2, 1] R35 (-(2 * (13 * 2 ^ (-52 : ℤ) + 2 ^ (-50 : ℤ)) * 4)) := by
      rw [mem35]; norm_num
    refine (h2 hv hx).1 (corner_boundary (c := ⟨![5 / 4, 7 / 4], true⟩) ?_)
    subst hps; simp

/-- C156_stable: the middle of the unit square stays inside when each corner moves by up to 1/4. -/
example (g : Pt 2 → Pt 2) (h : ∀ c ∈ unitSquare, eucl c.elem (g c).elem ≤ 1 / 4) : ![1 / 2, 1 / 2] ∈ inside (unitSquare.map g) := by
  refine (C156_stable unitSquare g (1 / 4) h _ fun x hx => ?_).2 (unitSquare_inside (by norm_num) (by norm_num) (by norm_num) (by norm_num))
  rcases (unitSquare_boundary hx).1 with h | h | h | h
  · exact far_coord 0 (by rw [h]; norm_num [abs_of_pos])
  · exact far_coord 0 (by rw [h]; norm_num [abs_of_pos])
  · exact far_coord 1 (by rw [h]; norm_num [abs_of_pos])
  · exact far_coord 1 (by rw [h]; norm_num [abs_of_pos])

end WFMath.Cases
