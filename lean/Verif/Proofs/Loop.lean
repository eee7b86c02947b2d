import Verif.Model.Ctf

/-! Loop rules for `Except`-valued folds. -/

namespace Model

theorem foldlM_range'_inv {α : Type} {P : ℕ → α → Prop} {f : α → ℕ → Except Fault α} {s n : ℕ}
    {a : α} (h0 : P s a)
    (hstep : ∀ j a, s ≤ j → j < s + n → P j a → ∃ b, f a j = .ok b ∧ P (j + 1) b) :
    ∃ b, (List.range' s n).foldlM f a = .ok b ∧ P (s + n) b := by
  induction n generalizing s a with
  | zero => exact ⟨a, rfl, h0⟩
  | succ n ih =>
    obtain ⟨b, hb, hP⟩ := hstep s a (le_refl _) (by omega) h0
    obtain ⟨c, hc, hP'⟩ := ih hP (fun j a h1 h2 h3 => hstep j a (by omega) (by omega) h3)
    refine ⟨c, ?_, by rwa [show s + 1 + n = s + (n + 1) by omega] at hP'⟩
    rw [List.range'_succ, List.foldlM_cons, hb]
    exact hc

theorem mapM_ok {α β : Type} {f : α → Except Fault β} {g : α → β} {l : List α}
    (h : ∀ a ∈ l, f a = .ok (g a)) : l.mapM f = .ok (l.map g) := by
  induction l with
  | nil => rfl
  | cons a l ih =>
    rw [List.mapM_cons, h a (by simp), ih (fun b hb => h b (by simp [hb]))]
    rfl

end Model

namespace Model

/-- Loop rule with the list of already processed items as ghost state. -/
theorem foldlM_inv {α β : Type} {P : List β → α → Prop} {f : α → β → Except Fault α} :
    ∀ (l done : List β) (a : α), P done a →
      (∀ d x a, x ∈ l → (∃ t, done ++ l = d ++ x :: t) → P d a → ∃ b, f a x = .ok b ∧ P (d ++ [x]) b) →
      ∃ b, l.foldlM f a = .ok b ∧ P (done ++ l) b
  | [], done, a, h0, _ => ⟨a, rfl, by simpa using h0⟩
  | x :: l, done, a, h0, hstep => by
    obtain ⟨b, hb, hP⟩ := hstep done x a (by simp) ⟨l, rfl⟩ h0
    obtain ⟨c, hc, hP'⟩ := foldlM_inv l (done ++ [x]) b hP (by
      intro d y a hy ht hd
      exact hstep d y a (by simp [hy]) (by simpa using ht) hd)
    exact ⟨c, by rw [List.foldlM_cons, hb]; exact hc, by simpa using hP'⟩

end Model
