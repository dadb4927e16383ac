/- The even-odd rule is stable: when the corners of a polygon move by no more than `η`, a point farther than `η` from the sides stays inside or stays outside. -/
import Verif.Props.PolyMoved
import Mathlib.Topology.LocallyConstant.Basic
import Mathlib.Topology.UnitInterval

namespace WFMath
open Spec Matrix Filter Topology

theorem sides_map' (g : Pt 2 → Pt 2) (ps : Corners 2) : sides (ps.map g) = (ps.zip (ps.rotate 1)).map fun e => ((g e.1).elem, (g e.2).elem) := by
  unfold sides
  rw [← List.map_rotate, List.zip_map, List.map_map]
  rfl

/-- The corner on the way from one place to another. -/
noncomputable def onWay (f g : Pt 2 → Pt 2) (t : ℝ) (c : Pt 2) : Pt 2 := ⟨(1 - t) • (f c).elem + t • (g c).elem, c.valid⟩

/-- Each point of the sides has a point of the sides of the moved polygon near it. -/
theorem boundary_moved {ps : Corners 2} {f g : Pt 2 → Pt 2} {η : ℝ} (h : ∀ c ∈ ps, len ((f c).elem - (g c).elem) ≤ η) {x : V2}
    (hx : x ∈ boundary (ps.map f)) : ∃ y ∈ boundary (ps.map g), len (x - y) ≤ η := by
  obtain ⟨e, he, hs⟩ := hx
  rw [sides_map'] at he
  obtain ⟨⟨a, b⟩, hab, rfl⟩ := List.mem_map.1 he
  obtain ⟨s, s0, s1, rfl⟩ := mem_seg.1 hs
  refine ⟨(1 - s) • (g a).elem + s • (g b).elem, ⟨((g a).elem, (g b).elem), ?_, mem_seg.2 ⟨s, s0, s1, rfl⟩⟩, ?_⟩
  · rw [sides_map']
    exact List.mem_map.2 ⟨(a, b), hab, rfl⟩
  · have hm := List.of_mem_zip hab
    have h1 := h a hm.1
    have h2 := h b (List.mem_rotate.1 hm.2)
    have e : (1 - s) • (f a).elem + s • (f b).elem - ((1 - s) • (g a).elem + s • (g b).elem) =
      (1 - s) • ((f a).elem - (g a).elem) + s • ((f b).elem - (g b).elem) := by module
    show len ((1 - s) • (f a).elem + s • (f b).elem - _) ≤ η
    rw [e]
    refine (len_add_le _ _).trans ?_
    rw [len_smul, len_smul, abs_of_nonneg s0, abs_of_nonneg (by linarith)]
    nlinarith

theorem ray_local {d p : V2} (hd : d ≠ 0) {a b : ℝ → V2} (ha : Continuous a) (hb : Continuous b) {t : ℝ} (h1 : cr d (a t - p) ≠ 0) (h2 : cr d (b t - p) ≠ 0)
    (hp : p ∉ segment ℝ (a t) (b t)) : ∀ᶠ s in 𝓝 t, (RayCrosses d p (a s) (b s) ↔ RayCrosses d p (a t) (b t)) := by
  have ca : Continuous fun s => cr d (a s - p) := by unfold cr; fun_prop
  have cb : Continuous fun s => cr d (b s - p) := by unfold cr; fun_prop
  have cc : Continuous fun s => cr (a s - p) (b s - p) := by unfold cr; fun_prop
  have lt : ∀ {f : ℝ → ℝ}, Continuous f → f t < 0 → ∀ᶠ s in 𝓝 t, f s < 0 := fun hf h => hf.continuousAt.eventually (gt_mem_nhds h)
  have gt : ∀ {f : ℝ → ℝ}, Continuous f → 0 < f t → ∀ᶠ s in 𝓝 t, 0 < f s := fun hf h => hf.continuousAt.eventually (lt_mem_nhds h)
  simp only [rayCrosses_iff hd]
  rcases lt_or_gt_of_ne h1 with h1 | h1 <;> rcases lt_or_gt_of_ne h2 with h2 | h2
  · filter_upwards [lt ca h1, lt cb h2] with s k1 k2
    constructor <;> rintro (⟨_, _, _⟩ | ⟨_, _, _⟩) <;> linarith
  · have hne := cr_ne_zero hd hp h1.le h2
    rcases lt_or_gt_of_ne hne with h3 | h3
    · filter_upwards [lt ca h1, gt cb h2, lt cc h3] with s k1 k2 k3
      constructor <;> rintro (⟨_, _, _⟩ | ⟨_, _, _⟩) <;> linarith
    · filter_upwards [lt ca h1, gt cb h2, gt cc h3] with s k1 k2 k3
      exact ⟨fun _ => .inl ⟨h1.le, h2, h3⟩, fun _ => .inl ⟨k1.le, k2, k3⟩⟩
  · have hne := cr_ne_zero hd (fun h => hp (seg_comm _ _ ▸ h)) h2.le h1
    rw [cr_swap, neg_ne_zero] at hne
    rcases lt_or_gt_of_ne hne with h3 | h3
    · filter_upwards [gt ca h1, lt cb h2, lt cc h3] with s k1 k2 k3
      exact ⟨fun _ => .inr ⟨h2.le, h1, h3⟩, fun _ => .inr ⟨k2.le, k1, k3⟩⟩
    · filter_upwards [gt ca h1, lt cb h2, gt cc h3] with s k1 k2 k3
      constructor <;> rintro (⟨_, _, _⟩ | ⟨_, _, _⟩) <;> linarith
  · filter_upwards [gt ca h1, gt cb h2] with s k1 k2
    constructor <;> rintro (⟨_, _, _⟩ | ⟨_, _, _⟩) <;> linarith

theorem onWay_near {f g : Pt 2 → Pt 2} {η : ℝ} {c : Pt 2} (h : len ((f c).elem - (g c).elem) ≤ η) {t : ℝ} (t0 : 0 ≤ t) (t1 : t ≤ 1) :
    len ((f c).elem - (onWay f g t c).elem) ≤ η := by
  have e : (f c).elem - (onWay f g t c).elem = t • ((f c).elem - (g c).elem) := by
    show (f c).elem - ((1 - t) • (f c).elem + t • (g c).elem) = _
    module
  rw [e, len_smul, abs_of_nonneg t0]
  nlinarith [len_nonneg ((f c).elem - (g c).elem)]

/-- When the corners move by no more than `η`, a point farther than `η` from the sides stays inside or stays outside. -/
theorem inside_stable {ps : Corners 2} {f g : Pt 2 → Pt 2} {η : ℝ} (h : ∀ c ∈ ps, len ((f c).elem - (g c).elem) ≤ η) {p : V2}
    (hp : ∀ x ∈ boundary (ps.map f), η < len (x - p)) : p ∈ inside (ps.map g) ↔ p ∈ inside (ps.map f) := by
  classical
  have off : ∀ t : ℝ, 0 ≤ t → t ≤ 1 → p ∉ boundary (ps.map (onWay f g t)) := by
    intro t t0 t1 hb
    obtain ⟨y, hy, hl⟩ := boundary_moved (f := onWay f g t) (g := f) (η := η)
      (fun c hc => by rw [len_sub_comm]; exact onWay_near (h c hc) t0 t1) hb
    have := hp y hy
    rw [len_sub_comm] at this
    linarith
  have hlc : IsLocallyConstant fun t : unitInterval => Odd (rayCrossings east (ps.map (onWay f g t)) p) := by
    rw [IsLocallyConstant.iff_eventually_eq]
    intro t
    have ht := off t t.2.1 t.2.2
    obtain ⟨d, hd, hc⟩ := clear_direction _ ht
    have key : ∀ᶠ s : ℝ in 𝓝 (t : ℝ), rayCrossings d (ps.map (onWay f g s)) p = rayCrossings d (ps.map (onWay f g t)) p := by
      have : ∀ᶠ s : ℝ in 𝓝 (t : ℝ), ∀ e ∈ {e | e ∈ ps.zip (ps.rotate 1)},
          (RayCrosses d p (onWay f g s e.1).elem (onWay f g s e.2).elem ↔ RayCrosses d p (onWay f g t e.1).elem (onWay f g t e.2).elem) := by
        rw [Filter.eventually_all_finite (List.finite_toSet _)]
        rintro ⟨a, b⟩ he
        have hm := List.of_mem_zip he
        refine ray_local (a := fun s => (onWay f g s a).elem) (b := fun s => (onWay f g s b).elem) hd (by unfold onWay; fun_prop) (by unfold onWay; fun_prop)
          (hc _ (List.mem_map_of_mem hm.1)) (hc _ (List.mem_map_of_mem (List.mem_rotate.1 hm.2))) fun hs => ht ⟨((onWay f g t a).elem, (onWay f g t b).elem), ?_, hs⟩
        rw [sides_map']
        exact List.mem_map.2 ⟨(a, b), he, rfl⟩
      filter_upwards [this] with s hs
      unfold rayCrossings
      rw [sides_map', sides_map', List.countP_map, List.countP_map]
      apply List.countP_congr
      intro e he
      simp only [Function.comp, decide_eq_true_eq]
      exact hs e he
    filter_upwards [continuous_subtype_val.continuousAt.eventually key] with s hs
    rw [eq_iff_iff, dir_odd hd east_ne (off s s.2.1 s.2.2), dir_odd hd east_ne ht, hs]
  have heq := hlc.apply_eq_of_preconnectedSpace (1 : unitInterval) (0 : unitInterval)
  have s1 : sides (ps.map (onWay f g ((1 : unitInterval) : ℝ))) = sides (ps.map g) := by
    rw [sides_map', sides_map']
    refine List.map_congr_left fun e _ => ?_
    simp [onWay]
  have s0 : sides (ps.map (onWay f g ((0 : unitInterval) : ℝ))) = sides (ps.map f) := by
    rw [sides_map', sides_map']
    refine List.map_congr_left fun e _ => ?_
    simp [onWay]
  have o1 := off 1 zero_le_one le_rfl
  have o0 := off 0 le_rfl zero_le_one
  unfold boundary at o1 o0
  rw [show (1 : ℝ) = ((1 : unitInterval) : ℝ) from rfl, s1] at o1
  rw [show (0 : ℝ) = ((0 : unitInterval) : ℝ) from rfl, s0] at o0
  unfold rayCrossings at heq
  rw [s1, s0] at heq
  constructor
  · exact fun h => ⟨o0, heq ▸ h.2⟩
  · exact fun h => ⟨o1, heq.symm ▸ h.2⟩

end WFMath
