import Verif.Proofs.TuckerTtmc
import Verif.Spec.Tucker
import Mathlib.Data.Set.List

/-! `unroll_tensor_contraction`. -/

namespace Model

open Finset Function

variable {K : Type} {N : ℕ}

/-- An iterated sum over the labels of the modes `ks` is a sum over multi-indices. -/
theorem sumOver_box [AddCommMonoid K] {lab : Fin N → Label} (hinj : Injective lab) (lens : Fin N → ℕ)
    (f : (Label → ℕ) → K) : ∀ (ks : List (Fin N)) (env : Label → ℕ), ks.Nodup → (∀ k, k ∉ ks → env (lab k) < lens k) →
      sumOver (ks.map fun k => (lab k, lens k)) f env =
        ∑ z ∈ Spec.Box lens with (∀ k, k ∉ ks → z k = env (lab k)), f (extOf lab z env)
  | [], env, _, henv => by
    have hset : (Spec.Box lens).filter (fun z => ∀ k, k ∉ ([] : List (Fin N)) → z k = env (lab k)) =
        {fun k => env (lab k)} := by
      ext z
      simp only [mem_filter, Spec.mem_Box, List.not_mem_nil, not_false_eq_true, true_implies, mem_singleton]
      constructor
      · rintro ⟨_, h⟩; exact funext h
      · rintro rfl; exact ⟨fun k => henv k (by simp), fun _ => rfl⟩
    rw [hset, Finset.sum_singleton]
    simp only [List.map_nil, sumOver]
    congr 1
    funext l
    by_cases h : ∃ k, lab k = l
    · obtain ⟨k, rfl⟩ := h
      rw [extOf_lab hinj]
    · rw [extOf_not]
      exact fun k e => h ⟨k, e⟩
  | k :: ks, env, hnd, henv => by
    rw [List.nodup_cons] at hnd
    simp only [List.map_cons, sumOver]
    have hmaps : ∀ z ∈ (Spec.Box lens).filter (fun z => ∀ k', k' ∉ k :: ks → z k' = env (lab k')),
        z k ∈ range (lens k) := by
      intro z hz
      simpa using Spec.mem_Box.1 (Finset.mem_filter.1 hz).1 k
    rw [← Finset.sum_fiberwise_of_maps_to hmaps]
    refine Finset.sum_congr rfl fun x hx => ?_
    rw [sumOver_box hinj lens f ks _ hnd.2 (by
      intro k' hk'
      by_cases e : k' = k
      · subst e; simpa using hx
      · rw [update_of_ne (fun h => e (hinj h))]
        exact henv k' (by simp [e, hk']))]
    have hset : ((Spec.Box lens).filter (fun z => ∀ k', k' ∉ k :: ks → z k' = env (lab k'))).filter (fun z => z k = x) =
        (Spec.Box lens).filter (fun z => ∀ k', k' ∉ ks → z k' = update env (lab k) x (lab k')) := by
      rw [Finset.filter_filter]
      apply Finset.filter_congr
      intro z _
      constructor
      · rintro ⟨h1, h2⟩ k' hk'
        by_cases e : k' = k
        · subst e; simpa using h2
        · rw [update_of_ne (fun h => e (hinj h))]
          exact h1 k' (by simp [e, hk'])
      · intro h
        refine ⟨fun k' hk' => ?_, by simpa using h k hnd.1⟩
        simp only [List.mem_cons, not_or] at hk'
        have := h k' hk'.2
        rwa [update_of_ne (fun h => hk'.1 (hinj h))] at this
    rw [hset]
    refine Finset.sum_congr rfl fun z _ => ?_
    congr 1
    funext l
    by_cases h : ∃ k', lab k' = l
    · obtain ⟨k', rfl⟩ := h
      rw [extOf_lab hinj, extOf_lab hinj]
    · have hl : ∀ k', lab k' ≠ l := fun k' e => h ⟨k', e⟩
      rw [extOf_not _ _ hl, extOf_not _ _ hl, update_of_ne (hl k).symm]

variable [CommRing K]

/-- `unroll_tensor_contraction` computes the Gram matrix of the unfolding. -/
theorem unroll_ok (hN : N ≤ 18) {lens : Fin N → ℕ} {T : Tensor K} {g : (Fin N → ℕ) → K} (hT : TVal T lens g) (i : Fin N) :
    ∃ M, unroll T i.1 = .ok M ∧ Canon M ∧ M.lens = [lens i, lens i] ∧
      ∀ x < lens i, ∀ y < lens i, mat M x y = Spec.unfoldGram lens g i x y := by
  set lab : Fin N → Label := fun j => (105 + (j.1 : ℤ) : ℤ) with hlab
  have hinj : Injective lab := chr_injective
  have hh : ∀ k, lab k ≠ hat := fun k => by unfold hat; change ¬ ((_ : ℤ) = _); simp only [hlab]; omega
  have ha : ∀ k, lab k ≠ ampersand := fun k => by unfold ampersand; change ¬ ((_ : ℤ) = _); simp only [hlab]; omega
  have hha : hat ≠ ampersand := by decide
  have hlen : T.lens.length = N := by rw [hT.1]; simp
  set d := extOf lab lens (fun _ => lens i) with hd
  have dlab : ∀ k, d (lab k) = lens k := extOf_lab hinj _ _
  have dh : d hat = lens i := extOf_not _ _ hh
  have da : d ampersand = lens i := extOf_not _ _ ha
  have dupd : ∀ s : Label, d s = lens i → ∀ k, d (update lab i s k) = lens k := by
    intro s hs k
    by_cases e : k = i
    · subst e; rw [update_self, hs]
    · rw [update_of_ne e, dlab]
  have R1 := hT.rep (lab := update lab i hat) (dupd _ dh)
  have R2 := hT.rep (lab := update lab i ampersand) (dupd _ da)
  obtain ⟨M, h1, h2, h3⟩ := einsum_rep (K := K) (d := d) (sc := [hat, ampersand])
    (ops := [(T, List.ofFn (update lab i hat)), (T, List.ofFn (update lab i ampersand))])
    (by
      intro o ho
      simp only [List.mem_cons, List.not_mem_nil, or_false] at ho
      rcases ho with rfl | rfl
      exacts [R1.1, R2.1])
  have hl : ([hat, ampersand] : List Label).map d = [lens i, lens i] := by simp [dh, da]
  rw [hl] at h1
  refine ⟨M, ?_, h2, by rw [h3.1, hl], ?_⟩
  · unfold unroll
    rw [hlen, tmapM_chr hN]
    simp only [bind, Except.bind]
    have : rd T.lens (i.1 : ℤ) = .ok (lens i) := by
      rw [rd_ok (by omega)]
      congr 1
      simp [hT.1]
    rw [this]
    simp only
    rw [ofFn_set, ofFn_set]
    exact h1
  · intro x hx y hy
    let env : Label → ℕ := fun l => if l = hat then x else y
    have e1 : env hat = x := by simp [env]
    have e2 : env ampersand = y := by simp [env, hha.symm]
    have hv := h3.2 env (by simp [e1, e2, dh, da, hx, hy])
    simp only [List.map_cons, List.map_nil, e1, e2] at hv
    rw [mat, hv]
    unfold exprVal
    -- the contracted labels
    set C := contracted [hat, ampersand] [(T, List.ofFn (update lab i hat)), (T, List.ofFn (update lab i ampersand))] with hC
    have hmem : ∀ l, l ∈ C ↔ ∃ k, k ≠ i ∧ lab k = l := by
      intro l
      rw [hC, mem_contracted]
      constructor
      · rintro ⟨⟨o, ho, hlo⟩, hn⟩
        simp only [List.mem_cons, List.not_mem_nil, or_false, not_or] at ho hn
        rcases ho with rfl | rfl
        · rcases mem_ofFn_update.1 hlo with h | h
          · exact absurd h hn.1
          · exact h
        · rcases mem_ofFn_update.1 hlo with h | h
          · exact absurd h hn.2
          · exact h
      · rintro ⟨k, hk, rfl⟩
        exact ⟨⟨_, List.mem_cons_self, mem_ofFn_update.2 (.inr ⟨k, hk, rfl⟩)⟩, by simp [hh, ha]⟩
    obtain ⟨ks, hks⟩ : ∃ ks : List (Fin N), ks.map lab = C := by
      have : C ∈ Set.range (List.map lab) := by
        rw [Set.range_list_map]
        intro l hl
        obtain ⟨k, _, e⟩ := (hmem l).1 hl
        exact ⟨k, e⟩
      exact this
    have hnd : ks.Nodup := by
      have := contracted_nodup [hat, ampersand] [(T, List.ofFn (update lab i hat)), (T, List.ofFn (update lab i ampersand))]
      rw [← hC, ← hks] at this
      exact this.of_map
    have hki : ∀ k, k ∉ ks ↔ k = i := by
      intro k
      have : k ∈ ks ↔ k ≠ i := by
        constructor
        · intro h
          obtain ⟨k', h1, h2⟩ := (hmem (lab k)).1 (by rw [← hks]; exact List.mem_map_of_mem h)
          exact hinj h2 ▸ h1
        · intro h
          have := (hmem (lab k)).2 ⟨k, h, rfl⟩
          rw [← hks, List.mem_map] at this
          obtain ⟨k', h1, h2⟩ := this
          exact hinj h2 ▸ h1
      rw [this, not_not]
    have hCd : (C.map fun l => (l, d l)) = ks.map fun k => (lab k, lens k) := by
      rw [← hks, List.map_map]
      exact List.map_congr_left fun k _ => by simp [dlab]
    rw [hCd]
    -- make the environment defined at `lab i`
    have hfree : ∀ e e' : Label → ℕ, (∀ l, l ≠ lab i → e l = e' l) →
        ([(T, List.ofFn (update lab i hat)), (T, List.ofFn (update lab i ampersand))].map
          fun o => o.1.val (o.2.map e)).prod =
        ([(T, List.ofFn (update lab i hat)), (T, List.ofFn (update lab i ampersand))].map
          fun o => o.1.val (o.2.map e')).prod := by
      intro e e' he
      congr 1
      apply List.map_congr_left
      intro o ho
      congr 1
      apply List.map_congr_left
      intro l hl
      apply he
      simp only [List.mem_cons, List.not_mem_nil, or_false] at ho
      rintro rfl
      rcases ho with rfl | rfl
      · rcases mem_ofFn_update.1 hl with h | ⟨k, h, e⟩
        exacts [hh i h, h (hinj e)]
      · rcases mem_ofFn_update.1 hl with h | ⟨k, h, e⟩
        exacts [ha i h, h (hinj e)]
    rw [sumOver_env (env' := update env (lab i) x) {l | l ≠ lab i} (fun e e' h => hfree e e' h)
      (fun l hl _ => by rw [update_of_ne hl])]
    rw [sumOver_box hinj lens _ ks _ hnd (by
      intro k hk
      rw [(hki k).1 hk, update_self]
      exact hx)]
    unfold Spec.unfoldGram
    refine Finset.sum_congr ?_ ?_
    · apply Finset.filter_congr
      intro z _
      constructor
      · intro h; have := h i ((hki i).2 rfl); simpa using this
      · intro h k hk; rw [(hki k).1 hk]; simpa using h
    · intro z hz
      obtain ⟨hz1, hz2⟩ := Finset.mem_filter.1 hz
      rw [Spec.mem_Box] at hz1
      set ev := extOf lab z (update env (lab i) x) with hev
      have v1 : ∀ k, ev (lab k) = z k := extOf_lab hinj _ _
      have v2 : ev hat = x := by rw [hev, extOf_not _ _ hh, update_of_ne (hh i).symm, e1]
      have v3 : ev ampersand = y := by rw [hev, extOf_not _ _ ha, update_of_ne (ha i).symm, e2]
      have hb : ∀ (s : Label), ev s < lens i → d s = lens i → ∀ l ∈ List.ofFn (update lab i s), ev l < d l := by
        intro s h1 h2 l hl
        rcases mem_ofFn_update.1 hl with rfl | ⟨k, _, rfl⟩
        · rw [h2]; exact h1
        · rw [v1, dlab]; exact hz1 k
      have q1 : T.val ((List.ofFn (update lab i hat)).map ev) = g z := by
        rw [R1.2 ev (hb _ (by rw [v2]; exact hx) dh)]
        beta_reduce
        congr 1
        funext k
        by_cases e : k = i
        · subst e
          rw [update_self, v2]
          exact hz2.symm
        · rw [update_of_ne e, v1]
      have q2 : T.val ((List.ofFn (update lab i ampersand)).map ev) = g (update z i y) := by
        rw [R2.2 ev (hb _ (by rw [v3]; exact hy) da)]
        beta_reduce
        congr 1
        funext k
        by_cases e : k = i
        · subst e; rw [update_self, update_self, v3]
        · rw [update_of_ne e, update_of_ne e, v1]
      simp only [List.map_cons, List.map_nil, List.prod_cons, List.prod_nil, mul_one]
      rw [q1, q2]

end Model
