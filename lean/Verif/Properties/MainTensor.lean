import Verif.Model.Main
import Verif.Properties.Generators
import Verif.Properties.Run
import Verif.Properties.Build

/-! # C57: the tensor `main` of test_ALS.cxx decomposes -/

namespace Properties

open Model Finset

/-- What each `-tensor` value is documented to mean (README; comments in test_ALS.cxx:35-42), for the parsed options `o` and the
random numbers and data of `E`. -/
def InputSpec (E : MainEnv) (o : Opts) (V : Tensor ℝ) : Prop :=
  match tensorKind o.tensor with
  | .poisson2 => ∃ d : ℕ, o.dim = 2 * d ∧ V.lens = List.replicate (2 * d) o.size.toNat ∧
      ∀ idx : ℕ → ℕ, (∀ j < 2 * d, idx j < o.size.toNat) →
        V.val ((List.range (2 * d)).map idx) = Spec.laplacian (Spec.tridiag (-1) (-1)) d idx
  | .poisson => ∃ d : ℕ, o.dim = 2 * d ∧ V.lens = List.replicate d (o.size.toNat * o.size.toNat) ∧
      ∀ idx : ℕ → ℕ, (∀ j < 2 * d, idx j < o.size.toNat) →
        V.val ((List.range d).map fun k => idx (2 * k) + o.size.toNat * idx (2 * k + 1)) =
          Spec.laplacian (Spec.tridiag (-1) (-1)) d idx
  | .collinear => ∃ (X D : Tensor ℝ) (a : Fin o.dim.toNat → ℕ → ℕ → ℝ),
      V.lens = List.replicate o.dim.toNat o.size.toNat ∧ X.lens = V.lens ∧ D.lens = V.lens ∧
      (∀ j i k, k < i → i < o.R.toNat → (∃ x < o.size.toNat, a j i x ≠ 0) → (∃ x < o.size.toNat, a j k x ≠ 0) →
        o.colMin.toReal ≤ colOf o.size.toNat (a j i) (a j k) ∧ colOf o.size.toNat (a j i) (a j k) ≤ o.colMax.toReal) ∧
      (∀ idx : Fin o.dim.toNat → ℕ, (∀ j, idx j < o.size.toNat) → arr X o.dim.toNat idx =
        ∑ i ∈ range o.R.toNat, (0.2 + 0.6 / o.R.toNat * ((i : ℝ) + 1)) * ∏ j, a j i (idx j)) ∧
      (∀ idx, fits V.lens idx = true → V.val idx = X.val idx + D.val idx) ∧ norm2 D = o.ratioNoise.toReal * norm2 X
  | .random => V.lens = List.replicate o.dim.toNat o.size.toNat ∧ ∀ idx : Fin o.dim.toNat → ℕ, (∀ j, idx j < o.size.toNat) →
      arr V o.dim.toNat idx = ∑ r ∈ range o.R.toNat, ∏ j : Fin o.dim.toNat, E.matRnd j (idx j) r
  | .random2 => V.lens = List.replicate o.dim.toNat o.size.toNat ∧ ∀ idx, fits V.lens idx = true → V.val idx = E.tenRnd idx
  | .coil => V.lens = [3, 128, 128, 7200] ∧ ∀ idx, fits V.lens idx = true → V.val idx = E.file idx
  | .timelapse => V.lens = [33, 1344, 1024, 9] ∧ ∀ idx, fits V.lens idx = true → V.val idx = E.file idx
  | .none => False

/-- What the options have to satisfy for the tensor to be built. -/
def InputOk (E : MainEnv) (o : Opts) : Prop :=
  match tensorKind o.tensor with
  | .poisson => 1 ≤ E.np ∧ (∀ X, (E.readLocal X).flatten.Perm (allPairs X)) ∧ 2 ∣ o.dim ∧ 4 ≤ o.dim ∧ o.dim ≤ 158
  | .poisson2 => 1 ≤ E.np ∧ 2 ∣ o.dim ∧ 4 ≤ o.dim ∧ o.dim ≤ 158
  | .collinear => (o.colMin.Finite ∧ o.colMax.Finite ∧ o.ratioNoise.Finite) ∧ 2 ≤ o.dim ∧ o.dim ≤ 18 ∧ 0 ≤ o.ratioNoise.toReal ∧
      norm2 (fillT (List.replicate o.dim.toNat o.size.toNat) E.tenRnd) ≠ 0 ∧
      ∃ X, genCollinearity o.colMin.toReal o.colMax.toReal E.colRnd (List.replicate o.dim.toNat o.size.toNat) o.R.toNat
        E.colFuel = .ok X
  | .random => 2 ≤ o.dim ∧ o.dim ≤ 18
  | .random2 => True
  | .coil | .timelapse => o.dim = 4
  | .none => False

theorem replicate_ofFn (n s : ℕ) : List.replicate n s = List.ofFn fun _ : Fin n => s := by simp

theorem fillMats_length (lens : List ℕ) (R : ℕ) (f : ℕ → ℕ → ℕ → ℝ) : (fillMats lens R f).length = lens.length := by
  simp [fillMats]

theorem fillMats_get {lens : List ℕ} {R : ℕ} {f : ℕ → ℕ → ℕ → ℝ} {j : ℕ} (hj : j < lens.length) :
    (fillMats lens R f)[j]? = some (fillM lens[j] R (f j)) := by
  simp [fillMats, hj]

theorem fillMats_shaped {N : ℕ} {dims : Fin N → ℕ} {V : Tensor ℝ} (hV : V.lens = List.ofFn dims) (R : ℕ) (f : ℕ → ℕ → ℕ → ℝ) :
    Shaped dims R V (fillMats (List.ofFn dims) R f) := by
  refine ⟨hV, by rw [fillMats_length]; simp, fun j M hM => ?_⟩
  rw [fillMats_get (by simp)] at hM
  cases hM
  simp [fillM, fillT]

theorem fillMats_mats {N : ℕ} {dims : Fin N → ℕ} {R : ℕ} {f : ℕ → ℕ → ℕ → ℝ} (j : Fin N) {x r : ℕ} (hx : x < dims j) (hr : r < R) :
    mats (fillMats (List.ofFn dims) R f) j x r = f j x r := by
  unfold mats
  rw [fillMats_get (by simp)]
  simp [fillM, fillT, mat, fits, hx, hr]

/-- **C57 (the input).** For all options that satisfy `InputOk`, whatever the random numbers and the distribution over MPI ranks,
`main` builds the documented tensor. -/
theorem C57_tensor {E : MainEnv} {o : Opts} (h : InputOk E o) : ∃ V, mainTensor E o = .ok V ∧ InputSpec E o V := by
  unfold InputOk at h
  unfold InputSpec mainTensor
  cases hk : tensorKind o.tensor with
  | poisson =>
    rw [hk] at h
    simp only at h
    obtain ⟨h1, h2, ⟨d, h3⟩, h4, h5⟩ := h
    obtain ⟨d, rfl⟩ : ∃ n : ℕ, d = n := ⟨d.toNat, by omega⟩
    have hd : o.dim.toNat = 2 * d := by omega
    obtain ⟨L, l1, l2, l3⟩ := C39_laplacian (K := ℝ) (s := o.size.toNat) h1 (d := d) (by omega) (by omega)
      (V := zeroT ℝ (List.replicate (2 * d) o.size.toNat)) rfl
    obtain ⟨Y, y1, y2, y3⟩ := C40_fold_pairs (h2 L) (s := o.size.toNat) (d := d) (by rw [l2]; rfl)
      (Y := zeroT ℝ (List.replicate d (o.size.toNat * o.size.toNat))) rfl
    refine ⟨Y, ?_, d, h3, by rw [y2]; rfl, fun idx hidx => ?_⟩
    · simp only [tensorLens, bind, Except.bind]
      rw [hd, l1]
      simp only
      rw [show 2 * d / 2 = d by omega, y1]
    · rw [y3 idx hidx, l3 idx hidx]
      simp [zeroT]
  | poisson2 =>
    rw [hk] at h
    simp only at h
    obtain ⟨h1, ⟨d, h3⟩, h4, h5⟩ := h
    obtain ⟨d, rfl⟩ : ∃ n : ℕ, d = n := ⟨d.toNat, by omega⟩
    have hd : o.dim.toNat = 2 * d := by omega
    obtain ⟨L, l1, l2, l3⟩ := C39_laplacian (K := ℝ) (s := o.size.toNat) h1 (d := d) (by omega) (by omega)
      (V := zeroT ℝ (List.replicate (2 * d) o.size.toNat)) rfl
    refine ⟨L, ?_, d, h3, by rw [l2]; rfl, fun idx hidx => ?_⟩
    · simp only [tensorLens, bind, Except.bind]
      rw [hd, l1]
    · rw [l3 idx hidx]
      simp [zeroT]
  | collinear =>
    rw [hk] at h
    simp only at h
    obtain ⟨-, h1, h2, h3, h4, X, h5⟩ := h
    have h5' := h5
    rw [replicate_ofFn] at h5'
    obtain ⟨a, -, a2, a3, a4⟩ := C43_window (by omega) (by omega) h5'
    rw [← replicate_ofFn] at a3
    have hl : X.lens = (fillT (List.replicate o.dim.toNat o.size.toNat) E.tenRnd).lens := a3
    obtain ⟨V', D, e1, e2, e3⟩ := C52_noise hl h4 h3
    obtain ⟨V2, v1, -, v2, v3⟩ := zipT_ok (· + ·) (A := X) (B := scaleT (o.ratioNoise.toReal * norm2 X /
      norm2 (fillT (List.replicate o.dim.toNat o.size.toNat) E.tenRnd)) (fillT (List.replicate o.dim.toNat o.size.toNat) E.tenRnd)) hl
    have hV : V2 = V' := by
      unfold addNoise at e1
      rw [v1] at e1
      exact Except.ok.inj e1
    subst hV
    obtain ⟨D2, d1, -, d2, d3⟩ := zipT_ok (· - ·) (A := V2) (B := X) v2
    rw [d1] at e2
    cases e2
    refine ⟨V2, ?_, X, D, a, by rw [v2, a3], v2.symm, d2, a2, fun idx hidx => ?_, fun idx hidx => ?_, e3⟩
    · simp only [tensorLens, bind, Except.bind]
      rw [h5]
      exact e1
    · exact a4 idx (Spec.mem_Box.2 hidx)
    · rw [d3 idx hidx]
      ring
  | random =>
    rw [hk] at h
    simp only at h
    have hS := fillMats_shaped (dims := fun _ : Fin o.dim.toNat => o.size.toNat) (V := zeroT ℝ (List.ofFn fun _ : Fin o.dim.toNat => o.size.toNat))
      rfl o.R.toNat E.matRnd
    obtain ⟨B, b1, b2, b3⟩ := C15_build_V (by omega) (by omega) hS
    rw [← replicate_ofFn] at b1 b2
    refine ⟨B, ?_, b2, fun idx hidx => ?_⟩
    · simp only [tensorLens, bind, Except.bind]
      exact b1
    · rw [b3 idx (Spec.mem_Box.2 hidx)]
      unfold Spec.recon
      refine sum_congr rfl fun r hr => prod_congr rfl fun j _ => ?_
      exact fillMats_mats j (hidx j) (mem_range.1 hr)
  | random2 =>
    exact ⟨_, rfl, rfl, fun idx hidx => by
      simp only [fillT] at hidx ⊢
      rw [if_pos hidx]⟩
  | coil =>
    rw [hk] at h
    simp only at h
    have hd : o.dim.toNat = 4 := by omega
    refine ⟨fillT [3, 128, 128, 7200] E.file, ?_, rfl, fun idx hidx => by
      simp only [fillT] at hidx ⊢
      rw [if_pos hidx]⟩
    simp only [tensorLens, hd, if_true, bind, Except.bind]
    rfl
  | timelapse =>
    rw [hk] at h
    simp only at h
    have hd : o.dim.toNat = 4 := by omega
    refine ⟨fillT [33, 1344, 1024, 9] E.file, ?_, rfl, fun idx hidx => by
      simp only [fillT] at hidx ⊢
      rw [if_pos hidx]⟩
    simp only [tensorLens, hd, if_true, bind, Except.bind]
    rfl
  | none => rw [hk] at h; exact h.elim

end Properties
