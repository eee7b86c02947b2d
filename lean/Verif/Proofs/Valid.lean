import Verif.Proofs.CPOpt

/-! Label-free description of partially contracted tensors. -/

namespace Model

open Finset

variable {K : Type} [CommSemiring K] {N : ℕ}

/-- `T` is the input contracted with the factors along all modes not in `ms`; its modes are `ms` (in this order)
followed by the rank mode. -/
def Valid (dims : Fin N → ℕ) (R : ℕ) (V : (Fin N → ℕ) → K) (W : Fin N → ℕ → ℕ → K)
    (T : Tensor K) (ms : List (Fin N)) : Prop :=
  T.lens = ms.map dims ++ [R] ∧ ∀ y : Fin N → ℕ, (∀ m ∈ ms, y m < dims m) → ∀ r < R,
    T.val (ms.map y ++ [r]) = Spec.partialMttkrp dims V W ms.toFinset y r

open Classical in
/-- Extents of the labels of a labelling. -/
noncomputable def Labelling.d (L : Labelling N) (dims : Fin N → ℕ) (R : ℕ) (l : Label) : ℕ :=
  if h : ∃ m, L.lab m = l then dims h.choose else R

theorem Labelling.d_lab (L : Labelling N) (dims : Fin N → ℕ) (R : ℕ) (j : Fin N) :
    L.d dims R (L.lab j) = dims j := by
  have h : ∃ m, L.lab m = L.lab j := ⟨j, rfl⟩
  unfold Labelling.d
  rw [dif_pos h, L.inj h.choose_spec]

theorem Labelling.d_rk (L : Labelling N) (dims : Fin N → ℕ) (R : ℕ) : L.d dims R L.rk = R := by
  have h : ¬ ∃ m, L.lab m = L.rk := fun ⟨m, hm⟩ => L.ne m hm
  unfold Labelling.d
  rw [dif_neg h]

theorem Labelling.map_d (L : Labelling N) (dims : Fin N → ℕ) (R : ℕ) (ms : List (Fin N)) :
    (ms.map L.lab ++ [L.rk]).map (L.d dims R) = ms.map dims ++ [R] := by
  rw [List.map_append, List.map_map]
  simp only [List.map_cons, List.map_nil, L.d_rk]
  congr 1
  exact List.map_congr_left fun m _ => L.d_lab dims R m

open Classical in
theorem isPartial_iff_valid (L : Labelling N) {dims : Fin N → ℕ} {R : ℕ}
    {V : (Fin N → ℕ) → K} {W : Fin N → ℕ → ℕ → K} {T : Tensor K} {ms : List (Fin N)} :
    IsPartial L dims (L.d dims R) V W T ms ↔ Valid dims R V W T ms := by
  constructor
  · rintro ⟨h1, h2⟩
    refine ⟨by rw [h1, L.map_d], ?_⟩
    intro y hy r hr
    let env : Label → ℕ := fun l => if h : ∃ m, L.lab m = l then y h.choose else r
    have e1 : ∀ m, env (L.lab m) = y m := by
      intro m
      have h : ∃ k, L.lab k = L.lab m := ⟨m, rfl⟩
      simp only [env]
      rw [dif_pos h, L.inj h.choose_spec]
    have e2 : env L.rk = r := by
      have h : ¬ ∃ m, L.lab m = L.rk := fun ⟨m, hm⟩ => L.ne m hm
      simp only [env]
      rw [dif_neg h]
    have := h2 env (by
      intro l hl
      simp only [List.mem_append, List.mem_map, List.mem_singleton] at hl
      rcases hl with ⟨m, hm, rfl⟩ | rfl
      · rw [e1, L.d_lab]; exact hy m hm
      · rw [e2, L.d_rk]; exact hr)
    simp only [List.map_append, List.map_map, List.map_cons, List.map_nil, e2] at this
    rw [show ms.map (env ∘ L.lab) = ms.map y from List.map_congr_left fun m _ => e1 m] at this
    rw [this]
    exact Spec.partialMttkrp_congr (fun j _ => e1 j) (fun _ _ _ _ => rfl)
  · rintro ⟨h1, h2⟩
    refine ⟨by rw [h1, L.map_d], ?_⟩
    intro env henv
    have := h2 (fun m => env (L.lab m)) (by
      intro m hm
      have := henv (L.lab m) (by simp only [List.mem_append, List.mem_map]; exact Or.inl ⟨m, hm, rfl⟩)
      rwa [L.d_lab] at this) (env L.rk) (by
      have := henv L.rk (by simp)
      rwa [L.d_rk] at this)
    refine Eq.trans ?_ this
    simp only [List.map_append, List.map_map, List.map_cons, List.map_nil]
    rfl

/-- Contract mode `j` of a valid node with the factor of mode `j`. -/
theorem contract_valid (L : Labelling N) {dims : Fin N → ℕ} {R : ℕ}
    {V : (Fin N → ℕ) → K} {W : Fin N → ℕ → ℕ → K}
    {T Wj : Tensor K} {j : Fin N} {ms ms' : List (Fin N)}
    (hT : Valid dims R V W T ms) (hl : Wj.lens = [dims j, R]) (hW : mat Wj = W j)
    (hj : j ∈ ms) (hms : ms'.toFinset = ms.toFinset.erase j) :
    ∃ T', einsum (ms'.map dims ++ [R]) (ms'.map L.lab ++ [L.rk])
        [(T, ms.map L.lab ++ [L.rk]), (Wj, [L.lab j, L.rk])] = .ok T' ∧ Canon T' ∧
      Valid dims R V W T' ms' := by
  obtain ⟨T', h1, h2, h3⟩ := contract_step L (L.d_lab dims R) ((isPartial_iff_valid L).2 hT)
    (Wj := Wj) (j := j)
    (by rw [← hW]; exact rep_mat L hl (L.d_lab dims R j) (L.d_rk dims R)) hj hms
  rw [L.map_d] at h1
  exact ⟨T', h1, h2, (isPartial_iff_valid L).1 h3⟩

/-- Contract mode `j` of the input tensor. -/
theorem contract_valid_init (L : Labelling N) {dims : Fin N → ℕ} {R : ℕ}
    {V : Tensor K} {W : Fin N → ℕ → ℕ → K} (hV : V.lens = List.ofFn dims)
    {Wj : Tensor K} {j : Fin N} {ms' : List (Fin N)}
    (hl : Wj.lens = [dims j, R]) (hW : mat Wj = W j) (hms : ms'.toFinset = univ.erase j) :
    ∃ T', einsum (ms'.map dims ++ [R]) (ms'.map L.lab ++ [L.rk])
        [(V, List.ofFn L.lab), (Wj, [L.lab j, L.rk])] = .ok T' ∧ Canon T' ∧
      Valid dims R (arr V N) W T' ms' := by
  obtain ⟨T', h1, h2, h3⟩ := contract_init L (W := W) (L.d_lab dims R) hV
    (Wj := Wj) (j := j)
    (by rw [← hW]; exact rep_mat L hl (L.d_lab dims R j) (L.d_rk dims R)) hms
  rw [L.map_d] at h1
  exact ⟨T', h1, h2, (isPartial_iff_valid L).1 h3⟩

theorem valid_single {dims : Fin N → ℕ} {R : ℕ} {V : (Fin N → ℕ) → K}
    {W : Fin N → ℕ → ℕ → K} {T : Tensor K} {i : Fin N} (h : Valid dims R V W T [i]) :
    T.lens = [dims i, R] ∧ ∀ x < dims i, ∀ r < R, mat T x r = Spec.mttkrp dims V W i x r := by
  refine ⟨by simpa using h.1, ?_⟩
  intro x hx r hr
  have := h.2 (fun _ => x) (by simpa using hx) r hr
  simp only [List.map_cons, List.map_nil, List.singleton_append] at this
  rw [mat, this, show ([i] : List (Fin N)).toFinset = {i} by simp, Spec.partialMttkrp_single]

/-- A node does not depend on the factors of the modes it keeps. -/
theorem Valid.congr {dims : Fin N → ℕ} {R : ℕ} {V : (Fin N → ℕ) → K}
    {W W' : Fin N → ℕ → ℕ → K} {T : Tensor K} {ms : List (Fin N)} (h : Valid dims R V W T ms)
    (hW : ∀ j, j ∉ ms → W j = W' j) : Valid dims R V W' T ms := by
  refine ⟨h.1, fun y hy r hr => ?_⟩
  rw [h.2 y hy r hr]
  apply Spec.partialMttkrp_congr (fun _ _ => rfl)
  intro j hj x _
  rw [hW j (by simpa using hj)]

end Model
