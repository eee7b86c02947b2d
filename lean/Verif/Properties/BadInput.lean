import Verif.Properties.RunMain
import Verif.Properties.MainNeg

/-! # C57, C59: values of `-tensor` that the programs do not know -/

namespace Properties

open Model

theorem kind_none {t : CStr} (h : ∀ l, t ≠ 'p' :: l ∧ t ≠ 'c' :: l ∧ t ≠ 'r' :: l ∧ t ≠ 'o' :: '1' :: l ∧ t ≠ 'o' :: '2' :: l) :
    tensorKind t = .none := by
  obtain ⟨k1, k2, k3, k4, k5, k6, k7⟩ := C51_kinds t
  cases hk : tensorKind t with
  | none => rfl
  | poisson => obtain ⟨l, e, _⟩ := k1.1 hk; exact absurd e (h _).1
  | poisson2 => obtain ⟨l, e⟩ := k2.1 hk; exact absurd e (h _).1
  | collinear => obtain ⟨l, e⟩ := k3.1 hk; exact absurd e (h _).2.1
  | random => obtain ⟨l, e, _⟩ := k4.1 hk; exact absurd e (h _).2.2.1
  | random2 => obtain ⟨l, e⟩ := k5.1 hk; exact absurd e (h _).2.2.1
  | coil => obtain ⟨l, e⟩ := k6.1 hk; exact absurd e (h _).2.2.2.1
  | timelapse => obtain ⟨l, e⟩ := k7.1 hk; exact absurd e (h _).2.2.2.2

theorem tensor_ub {E : MainEnv} {o : Opts} (h : (∀ l, o.tensor ≠ 'p' :: l ∧ o.tensor ≠ 'c' :: l ∧ o.tensor ≠ 'r' :: l ∧
    o.tensor ≠ 'o' :: '1' :: l ∧ o.tensor ≠ 'o' :: '2' :: l) ∨
      ((∃ l, o.tensor = 'o' :: '1' :: l ∨ o.tensor = 'o' :: '2' :: l) ∧ o.dim ≠ 4)) : mainTensor E o = .error .ub := by
  unfold mainTensor
  rcases h with h | ⟨⟨l, h⟩, hd⟩
  · rw [kind_none h]
    rfl
  · obtain ⟨_, _, _, _, _, k6, k7⟩ := C51_kinds o.tensor
    have hd' : ¬ o.dim.toNat = 4 := by omega
    rcases h with h | h
    · rw [k6.2 ⟨l, h⟩]
      simp only [tensorLens, if_neg hd', bind, Except.bind]
    · rw [k7.2 ⟨l, h⟩]
      simp only [tensorLens, if_neg hd', bind, Except.bind]

/-- **C57 (violated).** test_ALS does not reject a value of `-tensor` it does not know (anything that does not start with `p`, `c`, `r`,
`o1`, `o2`), nor a data set with `-dim` other than 4: it goes on with a tensor that was never built (with the four edge lengths of the
data set written to an array of `-dim` elements). -/
theorem C57_bad_tensor {E : MainEnv} {o : Opts} (h : (∀ l, o.tensor ≠ 'p' :: l ∧ o.tensor ≠ 'c' :: l ∧ o.tensor ≠ 'r' :: l ∧
    o.tensor ≠ 'o' :: '1' :: l ∧ o.tensor ≠ 'o' :: '2' :: l) ∨
      ((∃ l, o.tensor = 'o' :: '1' :: l ∨ o.tensor = 'o' :: '2' :: l) ∧ o.dim ≠ 4)) (fuel : ℕ) :
    testMain E fuel o = .error .ub := by
  unfold testMain
  rw [tensor_ub h]
  rfl

/-- **C59 (violated).** run.cxx does not reject them either. -/
theorem C59_bad_tensor {E : MainEnv} {o : Opts} (h : (∀ l, o.tensor ≠ 'p' :: l ∧ o.tensor ≠ 'c' :: l ∧ o.tensor ≠ 'r' :: l ∧
    o.tensor ≠ 'o' :: '1' :: l ∧ o.tensor ≠ 'o' :: '2' :: l) ∨
      ((∃ l, o.tensor = 'o' :: '1' :: l ∨ o.tensor = 'o' :: '2' :: l) ∧ o.dim ≠ 4)) (lr : ℕ → Bool → Spec.LowRank ℝ) (fuel : ℕ) :
    runMain E lr fuel o = .error .ub := by
  unfold runMain
  rw [tensor_ub h]
  rfl

/-! ### the hypotheses are met: `-tensor x`, `-tensor o3`, `-tensor o1 -dim 3` -/

example (E : MainEnv) (lr : ℕ → Bool → Spec.LowRank ℝ) : runMain E lr 7 { exRunOpts 1 with tensor := "x".toList } = .error .ub :=
  C59_bad_tensor (.inl (by intro l; refine ⟨?_, ?_, ?_, ?_, ?_⟩ <;> simp)) lr 7

example (E : MainEnv) : testMain E 7 { exRunOpts 1 with tensor := "o3".toList } = .error .ub :=
  C57_bad_tensor (.inl (by intro l; refine ⟨?_, ?_, ?_, ?_, ?_⟩ <;> simp)) 7

example (E : MainEnv) : testMain E 7 { exRunOpts 1 with tensor := "o1".toList, dim := 3 } = .error .ub :=
  C57_bad_tensor (.inr ⟨⟨[], .inl rfl⟩, by decide⟩) 7

end Properties
