/- Property theorems C165: histories of motions of plane polygons that are taken back in floating point. -/
import Verif.Model.RoundedUndoPoly
import Verif.Props.RoundUndo
import Verif.Props.RoundBallHistory

namespace WFMath
open Spec Matrix Rounding

namespace Fl

/-- The same call among the calls for points of any dimension. -/
def Motion.step : Motion → Step 2
  | .shift v => .shift v
  | .rotate m p => .rotate m p
  | .toParent o m => .toParent o m
  | .toLocal o m => .toLocal o m

theorem step_point (r : Rounding 53) (h : List Motion) (x : Pt 2) : stepPoint r (h.map Motion.step) x = movePoint r h x := by
  induction h generalizing x with
  | nil => rfl
  | cons s ms ih =>
    have e : s.step.point r x = s.point r x := by cases s <;> rfl
    show stepPoint r (ms.map Motion.step) (s.step.point r x) = movePoint r ms (s.point r x)
    rw [e, ih]

theorem step_undo (h : List Motion) : (h ++ undoMotions h).map Motion.step = h.map Motion.step ++ undoAll (h.map Motion.step) := by
  unfold undoMotions undoAll
  rw [List.map_append, List.map_reverse, List.map_map, List.map_map]
  congr 3
  funext s
  cases s <;> rfl

theorem step_fits {E M : ℝ} {s : Motion} (h : s.Fits E M) : s.step.Fits E M := by
  have e : E - 2 * ((2 : ℕ) : ℝ) * (((2 : ℕ) : ℝ) + 1) * 2 ^ (-52 : ℤ) = E - 12 * 2 ^ (-52 : ℤ) := by norm_num
  cases s with
  | shift v => exact h
  | rotate m p => obtain ⟨a, R, b, c⟩ := h; exact ⟨a, R, b, by rw [e]; exact c⟩
  | toParent o m => obtain ⟨a, R, b, c⟩ := h; exact ⟨a, R, b, by rw [e]; exact c⟩
  | toLocal o m => obtain ⟨a, R, b, c⟩ := h; exact ⟨a, R, b, by rw [e]; exact c⟩

theorem point_back (r : Rounding 53) (h : List Motion) {E M : ℝ} (h0 : 12 * 2 ^ (-52 : ℤ) ≤ E) (h1 : E ≤ 1 / 10) (hf : ∀ s ∈ h, s.Fits E M) (x : Pt 2)
    (hx : StaysIn r M (h ++ undoMotions h) x) : eucl (movePoint r (h ++ undoMotions h) x).elem x.elem ≤ h.length * (4 * (2 * E + 2 ^ (-51 : ℤ)) * M) := by
  have t := C164_point r (by norm_num) (h.map Motion.step) E M (le_trans (by norm_num) h0) h1 (fun s hs => by
    obtain ⟨s, hm, rfl⟩ := List.mem_map.1 hs
    exact step_fits (hf s (by assumption))) x ?_
  · rwa [← step_undo, step_point, List.length_map] at t
  · intro k hk
    have := hx k (by rw [← step_undo, List.length_map] at hk; exact hk)
    rwa [← step_undo, ← List.map_take, step_point]

end Fl

/-- C165, corners: a plane polygon goes through a history of calls in doubles and then through the calls that take them back, the last one first. It has as many corners as before, in
the same order, and each comes back to where it was, up to `4 (2 E + 2^-51) M` for each call of the history. -/
theorem C165_corners (r : Rounding 53) (ps : Corners 2) (h : List Fl.Motion) (E M : ℝ) (h0 : 12 * 2 ^ (-52 : ℤ) ≤ E) (h1 : E ≤ 1 / 10) (hf : ∀ s ∈ h, s.Fits E M)
    (hc : ∀ c ∈ ps, Fl.StaysIn r M (h ++ Fl.undoMotions h) c) :
    List.Forall₂ (fun c c' : Pt 2 => eucl c'.elem c.elem ≤ h.length * (4 * (2 * E + 2 ^ (-51 : ℤ)) * M)) ps (Fl.movePoly r (h ++ Fl.undoMotions h) ps) := by
  rw [Fl.movePoly_eq, List.forall₂_map_right_iff, List.forall₂_same]
  exact fun c hm => Fl.point_back r h h0 h1 hf c (hc c hm)

/-- C165, the region: a polygon that is taken back covers what it covered. A point with no point of the boundary within `δ`, the distance a corner may be off, is inside the polygon at
the end exactly when it was inside at the start. -/
theorem C165_region (r : Rounding 53) (ps : Corners 2) (h : List Fl.Motion) (E M : ℝ) (h0 : 12 * 2 ^ (-52 : ℤ) ≤ E) (h1 : E ≤ 1 / 10) (hf : ∀ s ∈ h, s.Fits E M)
    (hc : ∀ c ∈ ps, Fl.StaysIn r M (h ++ Fl.undoMotions h) c) (x : Fin 2 → ℝ) (hx : ∀ z ∈ boundary ps, h.length * (4 * (2 * E + 2 ^ (-51 : ℤ)) * M) < eucl z x) :
    x ∈ inside (Fl.movePoly r (h ++ Fl.undoMotions h) ps) ↔ x ∈ inside ps := by
  rw [Fl.movePoly_eq]
  have hd : ∀ c ∈ ps, len ((id c).elem - (Fl.movePoint r (h ++ Fl.undoMotions h) c).elem) ≤ h.length * (4 * (2 * E + 2 ^ (-51 : ℤ)) * M) := fun c hm => by
    rw [len_sub_comm, ← eucl_eq_len]
    exact Fl.point_back r h h0 h1 hf c (hc c hm)
  have := inside_stable (ps := ps) (f := id) (g := Fl.movePoint r (h ++ Fl.undoMotions h)) hd (p := x) (fun z hz => by
    rw [List.map_id] at hz
    rw [← eucl_eq_len]
    exact hx z hz)
  rwa [List.map_id] at this

end WFMath
