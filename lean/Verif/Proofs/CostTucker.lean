import Verif.Proofs.CostLegacyTree
import Verif.Proofs.TuckerSweep

/-! The work of the steps of the Tucker sweeps, from shapes alone; the plain sweep. -/

namespace Model

open Spec (Tag Work termsOf storedOf countOf)
open Finset Function

variable {N : ℕ} {K : Type} [CommRing K]

/-- The products added up by `Y[.. s ..] = T[.. l ..] * B[l s]`. -/
theorem ttmC_runs (tag : Tag) {lens : Fin N → ℕ} {lab : Fin N → Label} (hinj : Injective lab) {s : Label} (hs : ∀ k, lab k ≠ s)
    {T B : Tensor K} (hT : T.lens = List.ofFn lens) {j : Fin N} {m : ℕ} (hB : B.lens = [lens j, m]) :
    ∃ T', Runs (einsumC tag (List.ofFn (update lens j m)) (List.ofFn (update lab j s)) [(T, List.ofFn lab), (B, [lab j, s])]) T'
        [⟨tag, m * ∏ k, lens k, ∏ k, update lens j m k⟩] ∧ T'.lens = List.ofFn (update lens j m) := by
  set d := extOf lab lens fun _ => m with hd
  have dlab : ∀ k, d (lab k) = lens k := extOf_lab hinj _ _
  have ds : d s = m := extOf_not _ _ hs
  have dupd : ∀ k, d (update lab j s k) = update lens j m k := by
    intro k
    by_cases h : k = j
    · subst h; simp [ds]
    · simp [update_of_ne h, dlab]
  obtain ⟨T', h1, h2⟩ := einsumC_runs (K := K) tag (d := d) (lensC := List.ofFn (update lens j m))
    (sc := List.ofFn (update lab j s)) (ops := [(T, List.ofFn lab), (B, [lab j, s])])
    (s := insert s (univ.image lab)) (by rw [List.map_ofFn]; congr 1; funext k; exact (dupd k).symm) (by
      intro o ho
      simp only [List.mem_cons, List.not_mem_nil, or_false] at ho
      rcases ho with rfl | rfl
      · simp only
        rw [hT, List.map_ofFn]
        congr 1
        funext k
        exact (dlab k).symm
      · simp [hB, dlab, ds]) (by
      ext l
      simp only [List.flatMap_cons, List.flatMap_nil, List.append_nil, List.mem_toFinset, List.mem_append, List.mem_cons,
        List.not_mem_nil, or_false, mem_insert, mem_image, mem_univ, true_and, mem_ofFn_update]
      simp only [List.mem_ofFn]
      constructor
      · rintro ((h | ⟨k, _, e⟩) | (⟨k, e⟩ | (h | h)))
        · exact .inl h
        · exact .inr ⟨k, e⟩
        · exact .inr ⟨k, e⟩
        · exact .inr ⟨j, h.symm⟩
        · exact .inl h
      · rintro (h | h)
        · exact .inl (.inl h)
        · exact .inr (.inl h))
  refine ⟨T', ?_, h1⟩
  rw [prod_insert (by simpa using hs), ds, prod_image (fun a _ b _ e => hinj e)] at h2
  simp only [dlab] at h2
  rwa [List.prod_ofFn] at h2

/-- The products added up by `Y[.. s .. t ..] = T[.. l .. l' ..] * B[l s] * C[l' t]`. -/
theorem ttm2C_runs (tag : Tag) {lens : Fin N → ℕ} {lab : Fin N → Label} (hinj : Injective lab) {s t : Label} (hs : ∀ k, lab k ≠ s)
    (ht : ∀ k, lab k ≠ t) (hst : s ≠ t) {T B C : Tensor K} (hT : T.lens = List.ofFn lens) {j j' : Fin N} (hj : j ≠ j') {m m' : ℕ}
    (hB : B.lens = [lens j, m]) (hC : C.lens = [lens j', m']) :
    ∃ T', Runs (einsumC tag (List.ofFn (update (update lens j m) j' m')) (List.ofFn (update (update lab j s) j' t))
        [(T, List.ofFn lab), (B, [lab j, s]), (C, [lab j', t])]) T'
        [⟨tag, m * (m' * ∏ k, lens k), ∏ k, update (update lens j m) j' m' k⟩] ∧
      T'.lens = List.ofFn (update (update lens j m) j' m') := by
  set d := extOf lab lens fun l => if l = s then m else m' with hd
  have dlab : ∀ k, d (lab k) = lens k := extOf_lab hinj _ _
  have ds : d s = m := by rw [hd, extOf_not _ _ hs, if_pos rfl]
  have dt : d t = m' := by rw [hd, extOf_not _ _ ht, if_neg hst.symm]
  have dupd : ∀ k, d (update (update lab j s) j' t k) = update (update lens j m) j' m' k := by
    intro k
    by_cases h' : k = j'
    · subst h'; simp [dt]
    · rw [update_of_ne h', update_of_ne h']
      by_cases h : k = j
      · subst h; simp [ds]
      · simp [update_of_ne h, dlab]
  obtain ⟨T', h1, h2⟩ := einsumC_runs (K := K) tag (d := d) (lensC := List.ofFn (update (update lens j m) j' m'))
    (sc := List.ofFn (update (update lab j s) j' t)) (ops := [(T, List.ofFn lab), (B, [lab j, s]), (C, [lab j', t])])
    (s := insert s (insert t (univ.image lab))) (by rw [List.map_ofFn]; congr 1; funext k; exact (dupd k).symm) (by
      intro o ho
      simp only [List.mem_cons, List.not_mem_nil, or_false] at ho
      rcases ho with rfl | rfl | rfl
      · simp only
        rw [hT, List.map_ofFn]
        congr 1
        funext k
        exact (dlab k).symm
      · simp [hB, dlab, ds]
      · simp [hC, dlab, dt]) (by
      ext l
      simp only [List.flatMap_cons, List.flatMap_nil, List.append_nil, List.mem_toFinset, List.mem_append, List.mem_cons,
        List.not_mem_nil, or_false, mem_insert, mem_image, mem_univ, true_and, mem_ofFn_update]
      simp only [List.mem_ofFn]
      constructor
      · rintro ((h | ⟨k, _, e⟩) | (⟨k, e⟩ | ((h | h) | (h | h))))
        · exact .inr (.inl h)
        · by_cases hk : k = j
          · subst hk
            rw [update_self] at e
            exact .inl e.symm
          · rw [update_of_ne hk] at e
            exact .inr (.inr ⟨k, e⟩)
        · exact .inr (.inr ⟨k, e⟩)
        · exact .inr (.inr ⟨j, h.symm⟩)
        · exact .inl h
        · exact .inr (.inr ⟨j', h.symm⟩)
        · exact .inr (.inl h)
      · rintro (h | h | h)
        · exact .inr (.inr (.inl (.inr h)))
        · exact .inl (.inl h)
        · exact .inr (.inl h))
  refine ⟨T', ?_, h1⟩
  rw [prod_insert (by simpa using ⟨hst, hs⟩), prod_insert (by simpa using ht), ds, dt, prod_image (fun a _ b _ e => hinj e)] at h2
  simp only [dlab] at h2
  rwa [List.prod_ofFn] at h2

/-- The products added up by `unroll_tensor_contraction`. -/
theorem unrollC_runs (hN : N ≤ 18) {lens : Fin N → ℕ} {T : Tensor K} (hT : T.lens = List.ofFn lens) (i : Fin N) :
    ∃ M, Runs (unrollC T i.1) M [⟨.update, lens i * ∏ k, lens k, lens i * lens i⟩] ∧ M.lens = [lens i, lens i] := by
  set lab : Fin N → Label := fun j => (105 + (j.1 : ℤ) : ℤ) with hlab
  have hinj : Injective lab := chr_injective
  have hh : ∀ k, lab k ≠ hat := fun k => by unfold hat; change ¬ ((_ : ℤ) = _); simp only [hlab]; omega
  have ha : ∀ k, lab k ≠ ampersand := fun k => by unfold ampersand; change ¬ ((_ : ℤ) = _); simp only [hlab]; omega
  have hha : hat ≠ ampersand := by decide
  have hlen : T.lens.length = N := by rw [hT]; simp
  set d := extOf lab lens (fun _ => lens i) with hd
  have dlab : ∀ k, d (lab k) = lens k := extOf_lab hinj _ _
  have dh : d hat = lens i := extOf_not _ _ hh
  have da : d ampersand = lens i := extOf_not _ _ ha
  have dupd : ∀ s : Label, d s = lens i → ∀ k, d (update lab i s k) = lens k := by
    intro s hs k
    by_cases e : k = i
    · subst e; rw [update_self, hs]
    · rw [update_of_ne e, dlab]
  obtain ⟨M, h1, h2⟩ := einsumC_runs (K := K) .update (d := d) (lensC := [lens i, lens i]) (sc := [hat, ampersand])
    (ops := [(T, List.ofFn (update lab i hat)), (T, List.ofFn (update lab i ampersand))])
    (s := insert hat (insert ampersand ((univ.erase i).image lab))) (by simp [dh, da]) (by
      intro o ho
      simp only [List.mem_cons, List.not_mem_nil, or_false] at ho
      rcases ho with rfl | rfl
      · simp only
        rw [hT, List.map_ofFn]
        congr 1
        funext k
        exact (dupd _ dh k).symm
      · simp only
        rw [hT, List.map_ofFn]
        congr 1
        funext k
        exact (dupd _ da k).symm) (by
      ext l
      simp only [List.flatMap_cons, List.flatMap_nil, List.append_nil, List.mem_toFinset, List.mem_append, List.mem_cons,
        List.not_mem_nil, or_false, mem_insert, mem_image, mem_erase, mem_univ, and_true, mem_ofFn_update]
      tauto)
  refine ⟨M, ?_, h1⟩
  rw [prod_insert (by simp only [mem_insert, mem_image, not_or]; exact ⟨hha, by rintro ⟨k, _, e⟩; exact hh k e⟩),
    prod_insert (by rw [mem_image]; rintro ⟨k, _, e⟩; exact ha k e), dh, da, prod_image (fun a _ b _ e => hinj e)] at h2
  simp only [dlab] at h2
  rw [mul_prod_erase univ lens (mem_univ i)] at h2
  unfold unrollC
  have hc : (List.range T.lens.length).mapM chr = .ok (List.ofFn lab) := by rw [hlen]; exact tmapM_chr hN
  have hr : rd T.lens (i.1 : ℤ) = .ok (lens i) := by rw [hT]; exact rd_ofFn lens i
  refine (Runs.lift hc).bind0 ((Runs.lift hr).bind0 ?_)
  rw [ofFn_set, ofFn_set]
  simpa using h2

theorem factorOfC_runs (hN : N ≤ 18) {lens : Fin N → ℕ} {Y : Tensor ℝ} (hY : Y.lens = List.ofFn lens) (i : Fin N) {k : Kern ℝ}
    (hk : SvdShape k) {r : ℕ} (hr : r ≤ lens i) :
    ∃ U, Runs (factorOfC k Y i.1 r) U [⟨.update, lens i * ∏ k, lens k, lens i * lens i⟩] ∧ U.lens = [lens i, r] := by
  obtain ⟨M, h1, h2⟩ := unrollC_runs hN hY i
  refine ⟨(k.svd M r).U, ?_, hk M _ _ h2 hr⟩
  unfold factorOfC
  simp only [not_lt.2 (norm2_nonneg_t _), if_false]
  have := h1.bind (f := fun M => (pure (k.svd M r).U : CM (Tensor ℝ))) (Runs.pure (k.svd M r).U)
  rwa [List.append_nil] at this

/-! ### the plain sweep -/

/-- The modes of full length before pass `k` of `TTMc` without mode `i`. -/
def plainKeep (i : Fin N) (k : ℕ) : Finset (Fin N) := univ.filter fun j : Fin N => k ≤ j.1 ∨ j = i

/-- What pass `k` of `TTMc` without mode `i` records. -/
def ttmcW (dims rk : Fin N → ℕ) (i : Fin N) (k : ℕ) : List Work :=
  if h : k < N then
    if k = i.1 then [] else
      [⟨if k = (if i.1 = 0 then 1 else 0) then .input else .mttkrp, rk ⟨k, h⟩ * ∏ j, klens dims rk (plainKeep i k) j,
        ∏ j, klens dims rk (plainKeep i (k + 1)) j⟩]
  else []

/-- What the update of mode `i` of `alsTucker` records. -/
def tuckModeW (dims rk : Fin N → ℕ) (i : Fin N) : List Work :=
  (List.range N).flatMap (ttmcW dims rk i) ++ [⟨.update, dims i * ∏ j, klens dims rk {i} j, dims i * dims i⟩]

theorem plainKeep_zero (i : Fin N) : plainKeep i 0 = univ := by ext j; simp [plainKeep]

theorem plainKeep_end (i : Fin N) : plainKeep i N = {i} := by
  ext j; simp [plainKeep]

theorem plainKeep_skip {i : Fin N} {k : ℕ} (h : k = i.1) : plainKeep i (k + 1) = plainKeep i k := by
  ext j; simp [plainKeep, Fin.ext_iff]; omega

theorem plainKeep_erase {i : Fin N} {k : ℕ} (hk : k < N) (h : k ≠ i.1) : plainKeep i (k + 1) = (plainKeep i k).erase ⟨k, hk⟩ := by
  ext j; simp [plainKeep, Fin.ext_iff]; omega

theorem klens_univ (dims rk : Fin N → ℕ) : klens dims rk univ = dims := by funext j; simp [klens]

theorem klens_self (dims rk : Fin N → ℕ) (i : Fin N) : klens dims rk {i} i = dims i := by simp [klens]

theorem ttmcC_runs (h2 : 2 ≤ N) (hN : N ≤ 10) {dims rk : Fin N → ℕ} {V : Tensor K} {W : List (Tensor K)}
    (hS : TuckShaped dims rk V W) (i : Fin N) (Y0 : Tensor K) :
    ∃ Y, Runs (ttmcC Y0 V W i.1) Y ((List.range N).flatMap (ttmcW dims rk i)) ∧ Y.lens = List.ofFn (klens dims rk {i}) := by
  have hlen : V.lens.length = N := by rw [hS.lensV]; simp
  obtain ⟨s, h1, h3, h4, h5⟩ := Runs.foldlM_range' (s := 0) (n := N)
    (P := fun k (s : Tensor K × Tensor K × List ℕ) => s.1.lens = List.ofFn (klens dims rk (plainKeep i k)) ∧
      s.2.2 = List.ofFn (klens dims rk (plainKeep i k)) ∧ ((∃ j < k, j ≠ i.1) → s.2.1 = s.1))
    (w := ttmcW dims rk i) (f := ttmcStepC N W i.1) (a := (V, Y0, V.lens))
    (by
      rw [plainKeep_zero, klens_univ]
      exact ⟨hS.lensV, hS.lensV, fun ⟨j, hj, _⟩ => by omega⟩)
    (by
      rintro k ⟨T, Y, lens⟩ _ hk ⟨g1, g2, g3⟩
      rw [Nat.zero_add] at hk
      simp only at g1 g2 g3
      unfold ttmcStepC ttmcW
      rw [dif_pos hk]
      by_cases hi : k = i.1
      · rw [if_pos (by exact_mod_cast hi), if_pos hi, plainKeep_skip hi]
        refine ⟨_, Runs.pure _, g1, g2, ?_⟩
        rintro ⟨j, hj, hne⟩
        exact g3 ⟨j, by omega, hne⟩
      · rw [if_neg (by exact_mod_cast hi), if_neg hi, plainKeep_erase hk hi]
        obtain ⟨Wk, r1, _, r2, _⟩ := tmats_get hS ⟨k, hk⟩
        have hmem : (⟨k, hk⟩ : Fin N) ∈ plainKeep i k := by simp [plainKeep]
        obtain ⟨T', t1, t2⟩ := ttmC_runs (K := K) (if k = (if i.1 = 0 then 1 else 0) then .input else .mttkrp)
          (letter_injective (N := N) (by omega)) (s := lk) (letter_ne_k hN) g1 (j := ⟨k, hk⟩) (m := rk ⟨k, hk⟩) (B := Wk)
          (by rw [r2]; simp [klens, hmem])
        rw [klens_update] at t1 t2
        refine ⟨(T', T', List.ofFn (klens dims rk ((plainKeep i k).erase ⟨k, hk⟩))), ?_, t2, rfl, fun _ => rfl⟩
        refine (Runs.lift r1).bind0 ?_
        have hl : lens.set k (ncol Wk) = List.ofFn (klens dims rk ((plainKeep i k).erase ⟨k, hk⟩)) := by
          rw [g2, ncol_of r2, ← klens_update, ← ofFn_set]
        have hseq : (allLetters N).set k lk = List.ofFn (update (fun j : Fin N => letter j.1) ⟨k, hk⟩ lk) := by
          rw [allLetters_ofFn, ← ofFn_set]
        have htag : (if k = (if ((i.1 : ℕ) : ℤ) = 0 then 1 else 0) then Tag.input else .mttkrp) =
            if k = (if i.1 = 0 then 1 else 0) then Tag.input else .mttkrp := by
          simp only [Nat.cast_eq_zero]
        simp only
        rw [hl, hseq, htag, allLetters_ofFn]
        have := t1.bind (f := fun Y => (pure (Y, Y, List.ofFn (klens dims rk ((plainKeep i k).erase ⟨k, hk⟩))) :
          CM (Tensor K × Tensor K × List ℕ))) (Runs.pure _)
        rwa [List.append_nil] at this)
  rw [Nat.zero_add, plainKeep_end] at h3
  rw [← List.range_eq_range'] at h1
  refine ⟨s.2.1, ?_, ?_⟩
  · unfold ttmcC
    rw [hlen]
    have := h1.bind (f := fun r : Tensor K × Tensor K × List ℕ => (pure r.2.1 : CM (Tensor K))) (Runs.pure s.2.1)
    rwa [List.append_nil] at this
  · rw [h5 (by
      by_cases h : i.1 = 0
      · exact ⟨1, by omega, by omega⟩
      · exact ⟨0, by omega, by omega⟩)]
    exact h3

theorem tuckUpdateC_runs (h2 : 2 ≤ N) (hN : N ≤ 10) {dims rk : Fin N → ℕ} (hr : ∀ j, rk j ≤ dims j) {V : Tensor ℝ}
    {W : List (Tensor ℝ)} (hS : TuckShaped dims rk V W) {k : Kern ℝ} (hk : SvdShape k) (i : Fin N) :
    ∃ W', Runs (tuckUpdateC k V (List.ofFn rk) W i.1) W' (tuckModeW dims rk i) ∧ TuckShaped dims rk V W' := by
  obtain ⟨Y, y1, y2⟩ := ttmcC_runs h2 hN hS i ⟨[], fun _ => 0⟩
  obtain ⟨U, u1, u2⟩ := factorOfC_runs (by omega) y2 i hk (r := rk i) (by rw [klens_self]; exact hr i)
  rw [klens_self] at u1 u2
  refine ⟨W.set i.1 U, ?_, hS.set i u2⟩
  unfold tuckUpdateC tuckModeW
  refine y1.bind ((Runs.lift (rd_ofFn rk i)).bind0 ?_)
  have := u1.bind (f := fun U => (pure (W.set i.1 U) : CM (List (Tensor ℝ)))) (Runs.pure (W.set i.1 U))
  rwa [List.append_nil] at this

theorem tuckSweepC_runs (h2 : 2 ≤ N) (hN : N ≤ 10) {dims rk : Fin N → ℕ} (hr : ∀ j, rk j ≤ dims j) {V : Tensor ℝ}
    {W : List (Tensor ℝ)} (hS : TuckShaped dims rk V W) {k : Kern ℝ} (hk : SvdShape k) :
    ∃ W', Runs (tuckSweepC k V (List.ofFn rk) W) W'
        ((List.range N).flatMap fun i => if h : i < N then tuckModeW dims rk ⟨i, h⟩ else []) ∧ TuckShaped dims rk V W' := by
  have hlen : V.lens.length = N := by rw [hS.lensV]; simp
  obtain ⟨s, h1, h3⟩ := Runs.foldlM_range' (s := 0) (n := N)
    (P := fun _ (s : List (Tensor ℝ)) => TuckShaped dims rk V s)
    (w := fun i => if h : i < N then tuckModeW dims rk ⟨i, h⟩ else [])
    (f := tuckUpdateC k V (List.ofFn rk)) (a := W) hS
    (by
      rintro j s _ hj g1
      rw [Nat.zero_add] at hj
      rw [dif_pos hj]
      exact tuckUpdateC_runs h2 hN hr g1 hk ⟨j, hj⟩)
  refine ⟨s, ?_, h3⟩
  unfold tuckSweepC
  rw [hlen, List.range_eq_range']
  exact h1

end Model
