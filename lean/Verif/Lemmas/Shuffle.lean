import Verif.Model.Shuffle
import Mathlib.Algebra.Group.End
import Mathlib.Tactic.Common

namespace WFMath.Shuffle

theorem swapStep_eq {n : Nat} {α : Type} (v : Fin n → α) (i j : Nat) (hi : i < n) (hj : j < n) :
    swapStep v i j = some (v ∘ Equiv.swap ⟨i, hi⟩ ⟨j, hj⟩) := by
  unfold swapStep
  split
  · rename_i h; subst h; simp
  · rename_i h
    rw [dif_pos ⟨hi, hj⟩]
    simp only [Option.some.injEq]
    funext k
    by_cases h1 : k = ⟨j, hj⟩
    · subst h1; simp
    · rw [Function.update_of_ne h1]
      by_cases h2 : k = ⟨i, hi⟩
      · subst h2; simp
      · rw [Function.update_of_ne h2]
        simp [Equiv.swap_apply_of_ne_of_ne h2 h1]

/-- The permutation applied by the loop. -/
def loopPerm {n : Nat} (rnd : Nat → Nat) : Nat → Equiv.Perm (Fin n)
  | 0 => 1
  | 1 => 1
  | m + 2 => if h : m + 1 < n ∧ rnd (m + 1) < n then
      Equiv.swap ⟨m + 1, h.1⟩ ⟨rnd (m + 1), h.2⟩ * loopPerm rnd (m + 1) else 1

theorem shuffleLoop_eq {n : Nat} {α : Type} (rnd : Nat → Nat) (m : Nat) (hm : m ≤ n)
    (hr : ∀ p, 0 < p → p < m → rnd p ≤ p) (v : Fin n → α) :
    shuffleLoop rnd m v = some (v ∘ loopPerm rnd m) := by
  induction m generalizing v with
  | zero => simp [shuffleLoop, loopPerm]
  | succ m ih =>
    cases m with
    | zero => simp [shuffleLoop, loopPerm]
    | succ m =>
      have h1 := hr (m + 1) (by omega) (by omega)
      rw [shuffleLoop, swapStep_eq v (m + 1) (rnd (m + 1)) (by omega) (by omega), Option.bind_some,
        ih (by omega) (fun p hp hp' => hr p hp (by omega)), loopPerm, dif_pos ⟨by omega, by omega⟩]
      rfl

theorem loopPerm_fix {n : Nat} (rnd : Nat → Nat) (m : Nat) (hm : m ≤ n)
    (hr : ∀ p, 0 < p → p < m → rnd p ≤ p) (i : Fin n) (hi : m ≤ i.val) :
    (loopPerm rnd m : Equiv.Perm (Fin n)) i = i := by
  induction m with
  | zero => rfl
  | succ m ih =>
    cases m with
    | zero => rfl
    | succ m =>
      have h1 := hr (m + 1) (by omega) (by omega)
      rw [loopPerm, dif_pos ⟨by omega, by omega⟩, Equiv.Perm.mul_apply,
        ih (by omega) (fun p hp hp' => hr p hp (by omega)) (by omega)]
      apply Equiv.swap_apply_of_ne_of_ne
      · intro h; rw [h] at hi; simp at hi; omega
      · intro h; rw [h] at hi; simp at hi; omega

theorem loopPerm_last {n : Nat} (rnd : Nat → Nat) (m : Nat) (hm : m + 2 ≤ n)
    (hr : ∀ p, 0 < p → p < m + 2 → rnd p ≤ p) :
    ((loopPerm rnd (m + 2) : Equiv.Perm (Fin n)) ⟨m + 1, by omega⟩).val = rnd (m + 1) := by
  have h1 := hr (m + 1) (by omega) (by omega)
  rw [loopPerm, dif_pos ⟨by omega, by omega⟩, Equiv.Perm.mul_apply,
    loopPerm_fix rnd (m + 1) (by omega) (fun p hp hp' => hr p hp (by omega)) _ (by simp)]
  simp

theorem loopPerm_congr {n : Nat} (r s : Nat → Nat) (m : Nat) (h : ∀ p, 0 < p → p < m → r p = s p) :
    (loopPerm r m : Equiv.Perm (Fin n)) = loopPerm s m := by
  induction m with
  | zero => rfl
  | succ m ih =>
    cases m with
    | zero => rfl
    | succ m =>
      simp only [loopPerm, h (m + 1) (by omega) (by omega), ih (fun p hp hp' => h p hp (by omega))]

theorem loopPerm_inj {n : Nat} (r s : Nat → Nat) (m : Nat) (hm : m ≤ n)
    (hr : ∀ p, 0 < p → p < m → r p ≤ p) (hs : ∀ p, 0 < p → p < m → s p ≤ p)
    (h : (loopPerm r m : Equiv.Perm (Fin n)) = loopPerm s m) : ∀ p, 0 < p → p < m → r p = s p := by
  induction m with
  | zero => intro p _ hp; omega
  | succ m ih =>
    cases m with
    | zero => intro p _ hp; omega
    | succ m =>
      have hl : r (m + 1) = s (m + 1) := by
        rw [← loopPerm_last (n := n) r m hm hr, ← loopPerm_last (n := n) s m hm hs, h]
      have h1 := hr (m + 1) (by omega) (by omega)
      have h2 := hs (m + 1) (by omega) (by omega)
      have := ih (by omega) (fun p hp hp' => hr p hp (by omega)) (fun p hp hp' => hs p hp (by omega)) (by
        rw [loopPerm, dif_pos ⟨by omega, by omega⟩, loopPerm, dif_pos ⟨by omega, by omega⟩] at h
        simp only [hl] at h
        exact mul_left_cancel h)
      intro p hp hp'
      by_cases hpm : p = m + 1
      · subst hpm; exact hl
      · exact this p hp (by omega)

theorem loopPerm_surj {n : Nat} (m : Nat) (hm : m ≤ n) (σ : Equiv.Perm (Fin n))
    (hσ : ∀ i : Fin n, m ≤ i.val → σ i = i) :
    ∃ r : Nat → Nat, (∀ p, 0 < p → p < m → r p ≤ p) ∧ loopPerm r m = σ := by
  induction m generalizing σ with
  | zero =>
    refine ⟨fun _ => 0, fun p _ h => by omega, ?_⟩
    ext i; rw [hσ i (by omega)]; rfl
  | succ m ih =>
    cases m with
    | zero =>
      refine ⟨fun _ => 0, fun p _ h => by omega, ?_⟩
      ext i
      by_cases hi : i.val = 0
      · have : σ i = i := by
          by_contra hne
          have h1 : (σ i).val ≠ 0 := fun h => hne (Fin.ext (by omega))
          have h2 := hσ (σ i) (by omega)
          exact hne (σ.injective h2)
        rw [this]; rfl
      · rw [hσ i (by omega)]; rfl
    | succ m =>
      let e : Fin n := ⟨m + 1, by omega⟩
      have hc : (σ e).val ≤ m + 1 := by
        by_contra hlt
        have h2 := hσ (σ e) (by omega)
        have := σ.injective h2
        rw [this] at hlt; simp [e] at hlt
      obtain ⟨r, hr, hp⟩ := ih (by omega) (Equiv.swap e (σ e) * σ) (by
        intro i hi
        rw [Equiv.Perm.mul_apply]
        by_cases h : i = e
        · subst h; simp
        · have hi' : m + 2 ≤ i.val := by
            have : i.val ≠ m + 1 := fun h' => h (Fin.ext h')
            omega
          rw [hσ i hi']
          apply Equiv.swap_apply_of_ne_of_ne h
          intro h'; rw [h'] at hi'; omega)
      let r' : Nat → Nat := fun p => if p = m + 1 then (σ e).val else r p
      have hr' : ∀ p, 0 < p → p < m + 2 → r' p ≤ p := by
        intro p hp hp'
        by_cases h : p = m + 1
        · simp [r', h]; exact hc
        · simp [r', h]; exact hr p hp (by omega)
      refine ⟨r', hr', ?_⟩
      have e1 : r' (m + 1) = (σ e).val := by simp [r']
      rw [loopPerm, dif_pos ⟨by omega, by rw [e1]; exact (σ e).isLt⟩]
      rw [loopPerm_congr r' r (m + 1) (fun p _ hp' => by simp [r']; omega), hp]
      have : (⟨r' (m + 1), by rw [e1]; exact (σ e).isLt⟩ : Fin n) = σ e := Fin.ext e1
      rw [this]
      show Equiv.swap e (σ e) * (Equiv.swap e (σ e) * σ) = σ
      rw [← mul_assoc, Equiv.swap_mul_self, one_mul]

end WFMath.Shuffle
