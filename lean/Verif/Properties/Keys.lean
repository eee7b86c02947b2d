import Verif.Model.Keys
import Verif.Proofs.PP
import Verif.Proofs.DTTree
import Verif.Proofs.Tucker

/-! # C47: tree keys are unambiguous -/

namespace Properties

open Model

variable {N : ℕ}

theorem letter_ne_zero {j : ℕ} (h : j < 159) : letter j ≠ 0 := by
  unfold letter
  change ¬ ((_ : ℤ) = _)
  omega

theorem takeWhile_ne {l : Key} (h : ∀ c ∈ l, c ≠ 0) : l.takeWhile (fun c => decide (c ≠ 0)) = l := by
  induction l with
  | nil => rfl
  | cons a l ih =>
    have ha := h a (by simp)
    rw [List.takeWhile_cons, if_pos (by simpa using ha), ih fun c hc => h c (by simp [hc])]

/-- **C47**. For mode numbers below 159 `vec2str` is the letters followed by `'*'`. -/
theorem C47_vec2str {v : List ℕ} (hv : ∀ j ∈ v, j < 159) : vec2strC v = vec2str v := by
  unfold vec2strC vec2str
  refine takeWhile_ne fun c hc => ?_
  simp only [List.mem_append, List.mem_map, List.mem_singleton] at hc
  rcases hc with ⟨j, hj, rfl⟩ | rfl
  · exact letter_ne_zero (hv j hj)
  · decide

/-- **C47**. Different mode lists have different keys. -/
theorem C47_injective {v w : List ℕ} (hv : ∀ j ∈ v, j < 159) (hw : ∀ j ∈ w, j < 159) (h : vec2strC v = vec2strC w) : v = w := by
  rw [C47_vec2str hv, C47_vec2str hw] at h
  unfold vec2str at h
  have h' := List.append_cancel_right h
  clear h
  induction v generalizing w with
  | nil =>
    cases w with
    | nil => rfl
    | cons b w => simp at h'
  | cons a v ih =>
    cases w with
    | nil => simp at h'
    | cons b w =>
      simp only [List.map_cons, List.cons.injEq] at h'
      have := letter_inj (by have := hv a (by simp); omega) (by have := hw b (by simp); omega) h'.1
      rw [this, ih (fun j hj => hv j (by simp [hj])) (fun j hj => hw j (by simp [hj])) h'.2]

/-- **C47**. The bound is sharp: any two lists that agree up to their first entry 159 have the same key. -/
theorem C47_collision (p v w : List ℕ) (hp : ∀ j ∈ p, j < 159) : vec2strC (p ++ 159 :: v) = vec2strC (p ++ 159 :: w) := by
  have key : ∀ v, vec2strC (p ++ 159 :: v) = p.map letter := by
    intro v
    unfold vec2strC
    induction p with
    | nil => simp [letter]
    | cons a p ih =>
      have ha : letter a ≠ 0 := letter_ne_zero (hp a (by simp))
      simp only [List.cons_append, List.map_cons, List.takeWhile_cons]
      rw [if_pos (by simpa using ha)]
      congr 1
      exact ih fun j hj => hp j (by simp [hj])
  rw [key, key]

/-- **C47**. For an ascending list `s` of modes below `N`, `stringbuilder_mttkrp` returns the letters of exactly the modes not in
`s`, ascending, and `'*'`. -/
theorem C47_complement (hN : N ≤ 159) {s : List ℕ} (hs : s.Pairwise (· < ·)) (hb : ∀ j ∈ s, j < N) :
    stringbuilder N (s.map letter) = .ok (((List.range N).filter fun m => decide (m ∉ s)).map letter ++ [star]) := by
  have hsub : s.Sublist (List.range N) :=
    List.sublist_of_subperm_of_pairwise (r := (· < ·)) (List.subperm_of_subset (hs.imp (fun h => Nat.ne_of_lt h))
      (fun j hj => List.mem_range.mpr (hb j hj))) hs List.pairwise_lt_range
  -- transport to `Fin N`
  have hf : ∃ ks : List (Fin N), ks.map Fin.val = s := ⟨s.pmap (fun j hj => ⟨j, hj⟩) hb, by
    rw [List.map_pmap]; simp⟩
  obtain ⟨ks, hks⟩ := hf
  have hr : (List.finRange N).map Fin.val = List.range N := by simp
  have hsub' : ks.Sublist (List.finRange N) := by
    rw [← hks, ← hr] at hsub
    have := (List.sublist_map_iff.mp hsub)
    obtain ⟨l', h1, h2⟩ := this
    have : l' = ks := (List.map_injective_iff.mpr Fin.val_injective h2).symm
    rwa [← this]
  have e1 : s.map letter = ks.map fun j => letter j.1 := by rw [← hks, List.map_map]; rfl
  have e2 : allLetters N = (List.finRange N).map fun j => letter j.1 := by
    unfold allLetters; rw [← hr, List.map_map]; rfl
  have e3 : ((List.range N).filter fun m => decide (m ∉ s)).map letter = (Model.compl ks).map fun j => letter j.1 := by
    unfold Model.compl
    rw [← hr, List.filter_map, List.map_map]
    have : (List.finRange N).filter ((fun m => decide (m ∉ s)) ∘ Fin.val) = (List.finRange N).filter (· ∉ ks) := by
      apply List.filter_congr
      intro x _
      simp only [Function.comp, ← hks, List.mem_map, decide_eq_decide]
      constructor
      · intro h hx; exact h ⟨x, hx, rfl⟩
      · rintro h ⟨y, hy, e⟩; exact h (Fin.ext e ▸ hy)
    rw [this]
    rfl
  unfold stringbuilder
  rw [e1, e2, copyUnmatched_sub (letter_injective (by omega)) hsub' (List.nodup_finRange N)]
  have hl := compl_length hsub'
  unfold Model.compl at hl e3
  simp only [List.length_map]
  rw [if_pos hl, e3]

/-- **C47**. `stringbuilder_mttkrp("0", ...)` returns all letters whether or not the comparison of the two string literals
succeeds. -/
theorem C47_literal (hN : N ≤ 31) (same : Bool) : stringbuilder0 same N = .ok ((List.range N).map letter) :=
  stringbuilder0_ok hN same

/-- **C47**. Ascending order matters: for a list that is not ascending the result is not the complement. -/
theorem C47_unsorted : stringbuilder 4 [letter 1, letter 0] ≠
    .ok (((List.range 4).filter fun m => decide (m ∉ [1, 0])).map letter ++ [star]) := by
  decide

/-! Non-vacuity. -/

example : stringbuilder 6 ([1, 2, 4].map letter) = .ok ([0, 3, 5].map letter ++ [star]) := by
  rw [C47_complement (by norm_num) (by decide) (by decide)]
  rfl

example : vec2strC [3, 0, 158] ≠ vec2strC [3, 158] := fun h => by
  have := C47_injective (by decide) (by decide) h
  simp at this

end Properties
