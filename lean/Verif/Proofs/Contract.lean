import Verif.Proofs.Ctf
import Verif.Model.Problem
import Verif.Proofs.SpecLemmas

/-! Contraction of one mode at the level of CTF expressions. -/

namespace Model

open Finset

variable {K : Type} [CommSemiring K] {N : ℕ}

/-- A label assignment for the modes: distinct labels, none of them the rank label. -/
structure Labelling (N : ℕ) where
  lab : Fin N → Label
  rk : Label
  inj : Function.Injective lab
  ne : ∀ j, lab j ≠ rk

/-- `T` is the partial MTTKRP on the kept modes `ms` (in that label order). -/
def IsPartial (L : Labelling N) (dims : Fin N → ℕ) (d : Label → ℕ) (V : (Fin N → ℕ) → K)
    (W : Fin N → ℕ → ℕ → K) (T : Tensor K) (ms : List (Fin N)) : Prop :=
  Rep T (ms.map L.lab ++ [L.rk]) d
    fun env => Spec.partialMttkrp dims V W ms.toFinset (fun j => env (L.lab j)) (env L.rk)

theorem update_lab (L : Labelling N) (env : Label → ℕ) (j : Fin N) (x : ℕ) :
    (fun k => Function.update env (L.lab j) x (L.lab k)) =
      Function.update (fun k => env (L.lab k)) j x := by
  funext k
  by_cases h : k = j
  · subst h; simp
  · rw [Function.update_of_ne h, Function.update_of_ne (fun e => h (L.inj e))]

theorem contract_gen (L : Labelling N) {dims : Fin N → ℕ} {d : Label → ℕ}
    {V : (Fin N → ℕ) → K} {W : Fin N → ℕ → ℕ → K} (hd : ∀ j, d (L.lab j) = dims j)
    {T Wj : Tensor K} {sa : List Label} {keep : Finset (Fin N)} {j : Fin N} {ms' : List (Fin N)}
    (hT : Rep T sa d fun env =>
      Spec.partialMttkrp dims V W keep (fun j => env (L.lab j)) (env L.rk))
    (hsa : ∀ l ∈ sa, l = L.rk ∨ ∃ k ∈ keep, l = L.lab k)
    (hW : Rep Wj [L.lab j, L.rk] d fun env => W j (env (L.lab j)) (env L.rk))
    (hj : j ∈ keep) (hms : ms'.toFinset = keep.erase j) :
    ∃ T', einsum ((ms'.map L.lab ++ [L.rk]).map d) (ms'.map L.lab ++ [L.rk])
        [(T, sa), (Wj, [L.lab j, L.rk])] = .ok T' ∧ Canon T' ∧
      IsPartial L dims d V W T' ms' := by
  have hmem : ∀ k, L.lab k ∈ ms'.map L.lab ++ [L.rk] ↔ k ≠ j ∧ k ∈ keep := by
    intro k
    rw [← Finset.mem_erase, ← hms]
    simp only [List.mem_append, List.mem_map, List.mem_singleton, List.mem_toFinset, L.ne, or_false]
    constructor
    · rintro ⟨a, ha, e⟩; exact L.inj e ▸ ha
    · intro h; exact ⟨k, h, rfl⟩
  obtain ⟨T', h1, h2, h3⟩ := einsum_two (sc := ms'.map L.lab ++ [L.rk]) hT hW (L.lab j) (by simp)
    (by rw [hmem]; simp) (by
      intro l' hl' hn
      rcases hsa l' hl' with rfl | ⟨k, hk, rfl⟩
      · simp at hn
      · by_contra hne
        exact hn ((hmem k).2 ⟨fun e => hne (e ▸ rfl), hk⟩))
    (by
      intro l' hl' hn
      simp only [List.mem_cons, List.not_mem_nil, or_false] at hl'
      rcases hl' with rfl | rfl
      · rfl
      · simp at hn)
  refine ⟨T', h1, h2, h3.congr ?_⟩
  intro env henv
  rw [hd, hms, ← Spec.partialMttkrp_contract hj]
  apply Finset.sum_congr rfl
  intro x _
  rw [update_lab, Function.update_self, Function.update_of_ne (L.ne j).symm]

theorem contract_step (L : Labelling N) {dims : Fin N → ℕ} {d : Label → ℕ}
    {V : (Fin N → ℕ) → K} {W : Fin N → ℕ → ℕ → K} (hd : ∀ j, d (L.lab j) = dims j)
    {T Wj : Tensor K} {j : Fin N} {ms ms' : List (Fin N)}
    (hT : IsPartial L dims d V W T ms)
    (hW : Rep Wj [L.lab j, L.rk] d fun env => W j (env (L.lab j)) (env L.rk))
    (hj : j ∈ ms) (hms : ms'.toFinset = ms.toFinset.erase j) :
    ∃ T', einsum ((ms'.map L.lab ++ [L.rk]).map d) (ms'.map L.lab ++ [L.rk])
        [(T, ms.map L.lab ++ [L.rk]), (Wj, [L.lab j, L.rk])] = .ok T' ∧ Canon T' ∧
      IsPartial L dims d V W T' ms' := by
  refine contract_gen L hd hT ?_ hW (by simpa using hj) hms
  intro l hl
  simp only [List.mem_append, List.mem_map, List.mem_singleton] at hl
  rcases hl with ⟨k, hk, rfl⟩ | rfl
  · exact Or.inr ⟨k, by simpa using hk, rfl⟩
  · exact Or.inl rfl

/-- First contraction, from the input tensor. -/
theorem contract_init (L : Labelling N) {dims : Fin N → ℕ} {d : Label → ℕ}
    {V : Tensor K} {W : Fin N → ℕ → ℕ → K} (hd : ∀ j, d (L.lab j) = dims j)
    (hV : V.lens = List.ofFn dims)
    {Wj : Tensor K} {j : Fin N} {ms' : List (Fin N)}
    (hW : Rep Wj [L.lab j, L.rk] d fun env => W j (env (L.lab j)) (env L.rk))
    (hms : ms'.toFinset = univ.erase j) :
    ∃ T', einsum ((ms'.map L.lab ++ [L.rk]).map d) (ms'.map L.lab ++ [L.rk])
        [(V, List.ofFn L.lab), (Wj, [L.lab j, L.rk])] = .ok T' ∧ Canon T' ∧
      IsPartial L dims d (arr V N) W T' ms' := by
  refine contract_gen L hd (keep := univ) ⟨?_, ?_⟩ ?_ hW (by simp) hms
  · rw [hV, List.map_ofFn]
    congr 1
    funext k
    simp [hd]
  · intro env henv
    have hb : ∀ k, env (L.lab k) < dims k := fun k => by
      rw [← hd]; exact henv _ (by simp)
    beta_reduce
    rw [Spec.partialMttkrp_univ hb, arr, List.map_ofFn]
    rfl
  · intro l hl
    simp only [List.mem_ofFn] at hl
    obtain ⟨k, rfl⟩ := hl
    exact Or.inr ⟨k, by simp, rfl⟩

omit [CommSemiring K] in
/-- A factor matrix indexed by `[lab j, rk]`. -/
theorem rep_mat (L : Labelling N) {d : Label → ℕ} {M : Tensor K} {j : Fin N} {n R : ℕ}
    (h : M.lens = [n, R]) (hd : d (L.lab j) = n) (hr : d L.rk = R) :
    Rep M [L.lab j, L.rk] d fun env => mat M (env (L.lab j)) (env L.rk) := by
  refine ⟨by simp [h, hd, hr], fun env _ => rfl⟩

/-- When a single mode remains, the tensor is the MTTKRP. -/
theorem isPartial_single (L : Labelling N) {dims : Fin N → ℕ} {d : Label → ℕ}
    {V : (Fin N → ℕ) → K} {W : Fin N → ℕ → ℕ → K} (hd : ∀ j, d (L.lab j) = dims j)
    {T : Tensor K} {i : Fin N} (h : IsPartial L dims d V W T [i]) :
    T.lens = [dims i, d L.rk] ∧ ∀ x < dims i, ∀ r < d L.rk,
      mat T x r = Spec.mttkrp dims V W i x r := by
  refine ⟨by simpa [hd] using h.1, ?_⟩
  intro x hx r hr
  let env : Label → ℕ := fun l => if l = L.lab i then x else r
  have h1 : env (L.lab i) = x := by simp [env]
  have h2 : env L.rk = r := by simp [env, (L.ne i).symm]
  have := h.2 env (by simp [h1, h2, hd, hx, hr])
  simp only [List.map_cons, List.map_nil, List.singleton_append, h1, h2] at this
  rw [mat, this]
  rw [show ([i] : List (Fin N)).toFinset = {i} by simp, Spec.partialMttkrp_single, h1]

end Model
