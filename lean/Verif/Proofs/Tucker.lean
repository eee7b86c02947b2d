import Verif.Model.Tucker
import Verif.Proofs.PP
import Verif.Proofs.LegacySweep

/-! Tensor-times-matrix products at the level of CTF expressions. -/

namespace Model

open Finset Function

variable {K : Type} {N : ℕ}

/-- `T` has edge lengths `lens` and entries `g`. -/
def TVal (T : Tensor K) (lens : Fin N → ℕ) (g : (Fin N → ℕ) → K) : Prop :=
  T.lens = List.ofFn lens ∧ ∀ z : Fin N → ℕ, (∀ j, z j < lens j) → arr T N z = g z

theorem TVal.congr {T : Tensor K} {lens : Fin N → ℕ} {g g' : (Fin N → ℕ) → K} (h : TVal T lens g)
    (hg : ∀ z : Fin N → ℕ, (∀ j, z j < lens j) → g z = g' z) : TVal T lens g' :=
  ⟨h.1, fun z hz => (h.2 z hz).trans (hg z hz)⟩

open Classical in
/-- Extents of labels. -/
noncomputable def extOf (lab : Fin N → Label) (lens : Fin N → ℕ) (e : Label → ℕ) (l : Label) : ℕ :=
  if h : ∃ k, lab k = l then lens h.choose else e l

theorem extOf_lab {lab : Fin N → Label} (hinj : Injective lab) (lens : Fin N → ℕ) (e : Label → ℕ) (k : Fin N) :
    extOf lab lens e (lab k) = lens k := by
  have h : ∃ k', lab k' = lab k := ⟨k, rfl⟩
  unfold extOf
  rw [dif_pos h, hinj h.choose_spec]

theorem extOf_not {lab : Fin N → Label} (lens : Fin N → ℕ) (e : Label → ℕ) {l : Label} (hl : ∀ k, lab k ≠ l) :
    extOf lab lens e l = e l := by
  unfold extOf
  rw [dif_neg (fun ⟨k, hk⟩ => hl k hk)]

/-- A tensor indexed with distinct labels. -/
theorem TVal.rep {T : Tensor K} {lens : Fin N → ℕ} {g : (Fin N → ℕ) → K} (h : TVal T lens g) {lab : Fin N → Label}
    {d : Label → ℕ} (hd : ∀ k, d (lab k) = lens k) :
    Rep T (List.ofFn lab) d fun env => g fun k => env (lab k) := by
  refine ⟨by rw [h.1, List.map_ofFn]; congr 1; funext k; simp [hd], ?_⟩
  intro env henv
  rw [List.map_ofFn]
  exact h.2 (fun k => env (lab k)) fun k => by rw [← hd]; exact henv _ (by simp)

theorem TVal.of_rep {T : Tensor K} {lens : Fin N → ℕ} {f : (Label → ℕ) → K} {lab : Fin N → Label} (hinj : Injective lab)
    {d : Label → ℕ} (hd : ∀ k, d (lab k) = lens k) (h : Rep T (List.ofFn lab) d f) :
    TVal T lens fun z => f (extOf lab z fun _ => 0) := by
  refine ⟨by rw [h.1, List.map_ofFn]; congr 1; funext k; simp [hd], ?_⟩
  intro z hz
  have := h.2 (extOf lab z fun _ => 0) (by
    intro l hl
    simp only [List.mem_ofFn] at hl
    obtain ⟨k, rfl⟩ := hl
    rw [extOf_lab hinj, hd]
    exact hz k)
  rw [List.map_ofFn] at this
  beta_reduce
  rw [arr, ← this]
  congr 2
  funext k
  simp [extOf_lab hinj]

theorem update_inj {lab : Fin N → Label} (hinj : Injective lab) {s : Label} (hs : ∀ k, lab k ≠ s) (j : Fin N) :
    Injective (update lab j s) := by
  intro a b h
  by_cases ha : a = j <;> by_cases hb : b = j
  · rw [ha, hb]
  · subst ha; rw [update_self, update_of_ne hb] at h; exact absurd h.symm (hs b)
  · subst hb; rw [update_self, update_of_ne ha] at h; exact absurd h (hs a)
  · rw [update_of_ne ha, update_of_ne hb] at h; exact hinj h

theorem mem_ofFn_update {lab : Fin N → Label} {s : Label} {j : Fin N} {l : Label} :
    l ∈ List.ofFn (update lab j s) ↔ l = s ∨ ∃ k, k ≠ j ∧ lab k = l := by
  simp only [List.mem_ofFn]
  constructor
  · rintro ⟨k, rfl⟩
    by_cases h : k = j
    · subst h; left; simp
    · right; exact ⟨k, h, by rw [update_of_ne h]⟩
  · rintro (rfl | ⟨k, h, rfl⟩)
    · exact ⟨j, by simp⟩
    · exact ⟨k, by rw [update_of_ne h]⟩

variable [CommSemiring K]

/-- The value of a tensor-times-matrix product. -/
def ttmVal (lens : Fin N → ℕ) (g : (Fin N → ℕ) → K) (j : Fin N) (B : ℕ → ℕ → K) (z : Fin N → ℕ) : K :=
  ∑ x ∈ range (lens j), g (update z j x) * B x (z j)

/-- `Y[.. s ..] = T[.. l ..] * B[l s]`. -/
theorem ttm_step {lens : Fin N → ℕ} {lab : Fin N → Label} (hinj : Injective lab) {s : Label} (hs : ∀ k, lab k ≠ s)
    {T B : Tensor K} {g : (Fin N → ℕ) → K} (hT : TVal T lens g) {j : Fin N} {m : ℕ} (hB : B.lens = [lens j, m]) :
    ∃ T', einsum (List.ofFn (update lens j m)) (List.ofFn (update lab j s))
        [(T, List.ofFn lab), (B, [lab j, s])] = .ok T' ∧ Canon T' ∧
      TVal T' (update lens j m) (ttmVal lens g j (mat B)) := by
  set d := extOf lab lens fun _ => m with hd
  have dlab : ∀ k, d (lab k) = lens k := extOf_lab hinj _ _
  have ds : d s = m := extOf_not _ _ hs
  have hRB : Rep B [lab j, s] d fun env => mat B (env (lab j)) (env s) :=
    ⟨by simp [hB, dlab, ds], fun env _ => rfl⟩
  obtain ⟨T', h1, h2, h3⟩ := einsum_two (sc := List.ofFn (update lab j s)) (hT.rep dlab) hRB (lab j)
    (by simp) (by rw [mem_ofFn_update]; rintro (h | ⟨k, hk, e⟩); exacts [hs j h, hk (hinj e)])
    (by
      intro l hl hn
      simp only [List.mem_ofFn] at hl
      obtain ⟨k, rfl⟩ := hl
      by_contra hne
      exact hn (mem_ofFn_update.2 (.inr ⟨k, fun e => hne (by rw [e]), rfl⟩)))
    (by
      intro l hl hn
      simp only [List.mem_cons, List.not_mem_nil, or_false] at hl
      rcases hl with rfl | rfl
      · rfl
      · exact absurd (mem_ofFn_update.2 (.inl rfl)) hn)
  have dupd : ∀ k, d (update lab j s k) = update lens j m k := by
    intro k
    by_cases h : k = j
    · subst h; simp [ds]
    · simp [update_of_ne h, dlab]
  have hlens : (List.ofFn (update lab j s)).map d = List.ofFn (update lens j m) := by
    rw [List.map_ofFn]; congr 1; funext k; exact dupd k
  rw [hlens] at h1
  refine ⟨T', h1, h2, (TVal.of_rep (update_inj hinj hs j) dupd h3).congr ?_⟩
  intro z hz
  unfold ttmVal
  rw [dlab]
  refine Finset.sum_congr rfl fun x _ => ?_
  have hval : ∀ k, extOf (update lab j s) z (fun _ => 0) (update lab j s k) = z k :=
    extOf_lab (update_inj hinj hs j) z _
  have e1 : (fun k => update (extOf (update lab j s) z fun _ => 0) (lab j) x (lab k)) = update z j x := by
    funext k
    by_cases h : k = j
    · subst h; simp
    · rw [update_of_ne (fun e => h (hinj e)), update_of_ne h]
      have := hval k
      rwa [update_of_ne h] at this
  have e2 : update (extOf (update lab j s) z fun _ => 0) (lab j) x s = z j := by
    rw [update_of_ne (hs j).symm]
    have := hval j
    rwa [update_self] at this
  rw [e1, e2, update_self]

/-- The same with the operands swapped and the matrix transposed: `C[.. s ..] = A[s l] * T[.. l ..]`. -/
theorem ttm_step' {lens : Fin N → ℕ} {lab : Fin N → Label} (hinj : Injective lab) {s : Label} (hs : ∀ k, lab k ≠ s)
    {T A : Tensor K} {g : (Fin N → ℕ) → K} (hT : TVal T lens g) {j : Fin N} {m : ℕ} (hA : A.lens = [m, lens j]) :
    ∃ T', einsum (List.ofFn (update lens j m)) (List.ofFn (update lab j s))
        [(A, [s, lab j]), (T, List.ofFn lab)] = .ok T' ∧ Canon T' ∧
      TVal T' (update lens j m) (ttmVal lens g j fun x r => mat A r x) := by
  set d := extOf lab lens fun _ => m with hd
  have dlab : ∀ k, d (lab k) = lens k := extOf_lab hinj _ _
  have ds : d s = m := extOf_not _ _ hs
  have hRA : Rep A [s, lab j] d fun env => mat A (env s) (env (lab j)) :=
    ⟨by simp [hA, dlab, ds], fun env _ => rfl⟩
  obtain ⟨T', h1, h2, h3⟩ := einsum_two (sc := List.ofFn (update lab j s)) hRA (hT.rep dlab) (lab j)
    (by simp) (by rw [mem_ofFn_update]; rintro (h | ⟨k, hk, e⟩); exacts [hs j h, hk (hinj e)])
    (by
      intro l hl hn
      simp only [List.mem_cons, List.not_mem_nil, or_false] at hl
      rcases hl with rfl | rfl
      · exact absurd (mem_ofFn_update.2 (.inl rfl)) hn
      · rfl)
    (by
      intro l hl hn
      simp only [List.mem_ofFn] at hl
      obtain ⟨k, rfl⟩ := hl
      by_contra hne
      exact hn (mem_ofFn_update.2 (.inr ⟨k, fun e => hne (by rw [e]), rfl⟩)))
  have dupd : ∀ k, d (update lab j s k) = update lens j m k := by
    intro k
    by_cases h : k = j
    · subst h; simp [ds]
    · simp [update_of_ne h, dlab]
  have hlens : (List.ofFn (update lab j s)).map d = List.ofFn (update lens j m) := by
    rw [List.map_ofFn]; congr 1; funext k; exact dupd k
  rw [hlens] at h1
  refine ⟨T', h1, h2, (TVal.of_rep (update_inj hinj hs j) dupd h3).congr ?_⟩
  intro z hz
  unfold ttmVal
  rw [dlab]
  refine Finset.sum_congr rfl fun x _ => ?_
  have hval : ∀ k, extOf (update lab j s) z (fun _ => 0) (update lab j s k) = z k :=
    extOf_lab (update_inj hinj hs j) z _
  have e1 : (fun k => update (extOf (update lab j s) z fun _ => 0) (lab j) x (lab k)) = update z j x := by
    funext k
    by_cases h : k = j
    · subst h; simp
    · rw [update_of_ne (fun e => h (hinj e)), update_of_ne h]
      have := hval k
      rwa [update_of_ne h] at this
  have e2 : update (extOf (update lab j s) z fun _ => 0) (lab j) x s = z j := by
    rw [update_of_ne (hs j).symm]
    have := hval j
    rwa [update_self] at this
  rw [e1, e2, update_self, mul_comm]

/-- Two modes at once: `Y[.. s .. t ..] = T * B[l s] * C[l' t]`. -/
theorem ttm_step2 {lens : Fin N → ℕ} {lab : Fin N → Label} (hinj : Injective lab) {s t : Label} (hs : ∀ k, lab k ≠ s)
    (ht : ∀ k, lab k ≠ t) (hst : s ≠ t)
    {T B C : Tensor K} {g : (Fin N → ℕ) → K} (hT : TVal T lens g) {j j' : Fin N} (hj : j ≠ j') {m m' : ℕ}
    (hB : B.lens = [lens j, m]) (hC : C.lens = [lens j', m']) :
    ∃ T', einsum (List.ofFn (update (update lens j m) j' m')) (List.ofFn (update (update lab j s) j' t))
        [(T, List.ofFn lab), (B, [lab j, s]), (C, [lab j', t])] = .ok T' ∧ Canon T' ∧
      TVal T' (update (update lens j m) j' m')
        (ttmVal (update lens j m) (ttmVal lens g j (mat B)) j' (mat C)) := by
  set d := extOf lab lens fun l => if l = s then m else m' with hd
  have dlab : ∀ k, d (lab k) = lens k := extOf_lab hinj _ _
  have ds : d s = m := by rw [hd, extOf_not _ _ hs, if_pos rfl]
  have dt : d t = m' := by rw [hd, extOf_not _ _ ht, if_neg hst.symm]
  have hRB : Rep B [lab j, s] d fun env => mat B (env (lab j)) (env s) :=
    ⟨by simp [hB, dlab, ds], fun env _ => rfl⟩
  have hRC : Rep C [lab j', t] d fun env => mat C (env (lab j')) (env t) :=
    ⟨by simp [hC, dlab, dt], fun env _ => rfl⟩
  have hinj1 := update_inj hinj hs j
  have ht1 : ∀ k, update lab j s k ≠ t := by
    intro k
    by_cases h : k = j
    · subst h; simpa using hst
    · rw [update_of_ne h]; exact ht k
  have hinj2 := update_inj hinj1 ht1 j'
  have hmem : ∀ l, l ∈ List.ofFn (update (update lab j s) j' t) ↔ l = t ∨ l = s ∨ ∃ k, k ≠ j ∧ k ≠ j' ∧ lab k = l := by
    intro l
    rw [mem_ofFn_update]
    constructor
    · rintro (h | ⟨k, hk, e⟩)
      · exact .inl h
      · by_cases h : k = j
        · subst h; right; left; simpa using e.symm
        · rw [update_of_ne h] at e; exact .inr (.inr ⟨k, h, hk, e⟩)
    · rintro (h | h | ⟨k, h1, h2, e⟩)
      · exact .inl h
      · exact .inr ⟨j, hj, by simpa using h.symm⟩
      · exact .inr ⟨k, h2, by rw [update_of_ne h1]; exact e⟩
  obtain ⟨T', h1, h2, h3⟩ := einsum_three (sc := List.ofFn (update (update lab j s) j' t)) (hT.rep dlab) hRB hRC
    (lab j) (lab j') (fun e => hj (hinj e)) (by simp) (by simp)
    (by rw [hmem]; rintro (h | h | ⟨k, h1, _, e⟩); exacts [ht j h, hs j h, h1 (hinj e)])
    (by rw [hmem]; rintro (h | h | ⟨k, _, h1, e⟩); exacts [ht j' h, hs j' h, h1 (hinj e)])
    (by
      intro l hl hn
      simp only [List.mem_ofFn] at hl
      obtain ⟨k, rfl⟩ := hl
      by_contra hne
      push Not at hne
      exact hn ((hmem _).2 (.inr (.inr ⟨k, fun e => hne.1 (by rw [e]), fun e => hne.2 (by rw [e]), rfl⟩))))
    (by
      intro l hl hn
      simp only [List.mem_cons, List.not_mem_nil, or_false] at hl
      rcases hl with rfl | rfl
      · exact .inl rfl
      · exact absurd ((hmem _).2 (.inr (.inl rfl))) hn)
    (by
      intro l hl hn
      simp only [List.mem_cons, List.not_mem_nil, or_false] at hl
      rcases hl with rfl | rfl
      · exact .inr rfl
      · exact absurd ((hmem _).2 (.inl rfl)) hn)
  have dupd : ∀ k, d (update (update lab j s) j' t k) = update (update lens j m) j' m' k := by
    intro k
    by_cases h : k = j'
    · subst h; simp [dt]
    · rw [update_of_ne h, update_of_ne h]
      by_cases h' : k = j
      · subst h'; simp [ds]
      · rw [update_of_ne h', update_of_ne h', dlab]
  have hlens : (List.ofFn (update (update lab j s) j' t)).map d = List.ofFn (update (update lens j m) j' m') := by
    rw [List.map_ofFn]; congr 1; funext k; exact dupd k
  rw [hlens] at h1
  refine ⟨T', h1, h2, (TVal.of_rep hinj2 dupd h3).congr ?_⟩
  intro z hz
  unfold ttmVal
  rw [dlab, dlab, update_of_ne hj.symm, Finset.sum_comm]
  refine Finset.sum_congr rfl fun y _ => ?_
  rw [Finset.sum_mul]
  refine Finset.sum_congr rfl fun x _ => ?_
  set ev := extOf (update (update lab j s) j' t) z fun _ => 0 with hev
  have hval : ∀ k, ev (update (update lab j s) j' t k) = z k := extOf_lab hinj2 z _
  have v1 : ev t = z j' := by simpa using hval j'
  have v2 : ev s = z j := by
    have := hval j
    rwa [update_of_ne hj, update_self] at this
  have v3 : ∀ k, k ≠ j → k ≠ j' → ev (lab k) = z k := by
    intro k h1 h2
    have := hval k
    rwa [update_of_ne h2, update_of_ne h1] at this
  have e1 : (fun k => update (update ev (lab j) x) (lab j') y (lab k)) = update (update z j' y) j x := by
    funext k
    by_cases h : k = j'
    · subst h; rw [update_self, update_of_ne hj.symm, update_self]
    · rw [update_of_ne (fun e => h (hinj e))]
      by_cases h' : k = j
      · subst h'; simp
      · rw [update_of_ne (fun e => h' (hinj e)), update_of_ne h', update_of_ne h, v3 k h' h]
  have e2 : update (update ev (lab j) x) (lab j') y (lab j) = x := by
    rw [update_of_ne (fun e => hj (hinj e)), update_self]
  have e3 : update (update ev (lab j) x) (lab j') y s = z j := by
    rw [update_of_ne (hs j').symm, update_of_ne (hs j).symm, v2]
  have e4 : update (update ev (lab j) x) (lab j') y t = z j' := by
    rw [update_of_ne (ht j').symm, update_of_ne (ht j).symm, v1]
  rw [e1, e2, e3, e4, update_self, update_of_ne hj]
  ring

/-! ### Multi-mode products -/

/-- Edge lengths when the modes `keep` are not yet contracted. -/
def klens (dims rk : Fin N → ℕ) (keep : Finset (Fin N)) (j : Fin N) : ℕ := if j ∈ keep then dims j else rk j

/-- `T` is the multi-mode product with the modes `keep` left. -/
def TValid (dims rk : Fin N → ℕ) (V : (Fin N → ℕ) → K) (W : Fin N → ℕ → ℕ → K) (keep : Finset (Fin N)) (T : Tensor K) :
    Prop := TVal T (klens dims rk keep) (Spec.multiTTM dims V W keep)

theorem klens_update (dims rk : Fin N → ℕ) {keep : Finset (Fin N)} (j : Fin N) :
    update (klens dims rk keep) j (rk j) = klens dims rk (keep.erase j) := by
  funext k
  by_cases h : k = j
  · subst h; simp [klens]
  · rw [update_of_ne h]; simp [klens, h]

theorem ttmVal_multiTTM {dims rk : Fin N → ℕ} {V : (Fin N → ℕ) → K} {W : Fin N → ℕ → ℕ → K} {keep : Finset (Fin N)}
    {j : Fin N} (hj : j ∈ keep) (z : Fin N → ℕ) :
    ttmVal (klens dims rk keep) (Spec.multiTTM dims V W keep) j (W j) z = Spec.multiTTM dims V W (keep.erase j) z := by
  unfold ttmVal
  rw [klens, if_pos hj, Spec.multiTTM_eq, ← Spec.genContract_contract hj]
  refine Finset.sum_congr rfl fun x _ => ?_
  rw [Spec.multiTTM_eq]
  congr 1
  refine Spec.genContract_congr (fun _ _ => rfl) ?_ (fun _ _ _ _ => rfl)
  intro k hk
  rw [update_of_ne]
  rintro rfl
  exact hk hj

theorem TValid.congr {dims rk : Fin N → ℕ} {V : (Fin N → ℕ) → K} {W W' : Fin N → ℕ → ℕ → K} {keep : Finset (Fin N)}
    {T : Tensor K} (h : TValid dims rk V W keep T) (hW : ∀ j, j ∉ keep → ∀ x < dims j, ∀ r < rk j, W j x r = W' j x r) :
    TValid dims rk V W' keep T := by
  refine TVal.congr h fun z hz => ?_
  rw [Spec.multiTTM_eq, Spec.multiTTM_eq]
  refine Spec.genContract_congr (fun _ _ => rfl) (fun _ _ => rfl) ?_
  intro j hj x hx
  refine hW j hj x hx _ ?_
  have := hz j
  simpa [klens, hj] using this

theorem TValid.input {dims rk : Fin N → ℕ} {V : Tensor K} (W : Fin N → ℕ → ℕ → K) (hV : V.lens = List.ofFn dims) :
    TValid dims rk (arr V N) W univ V := by
  have hl : klens dims rk univ = dims := by funext j; simp [klens]
  refine ⟨by rw [hV, hl], fun z hz => ?_⟩
  rw [hl] at hz
  rw [Spec.multiTTM_eq, Spec.genContract_univ hz]

/-- Contract mode `j`. -/
theorem TValid.step {dims rk : Fin N → ℕ} {V : (Fin N → ℕ) → K} {W : Fin N → ℕ → ℕ → K} {keep : Finset (Fin N)}
    {T : Tensor K} (hT : TValid dims rk V W keep T) {lab : Fin N → Label} (hinj : Injective lab) {s : Label}
    (hs : ∀ k, lab k ≠ s) {j : Fin N} (hj : j ∈ keep) {B : Tensor K} (hB : B.lens = [dims j, rk j])
    (hBW : mat B = W j) :
    ∃ T', einsum (List.ofFn (klens dims rk (keep.erase j))) (List.ofFn (update lab j s))
        [(T, List.ofFn lab), (B, [lab j, s])] = .ok T' ∧ Canon T' ∧ TValid dims rk V W (keep.erase j) T' := by
  obtain ⟨T', h1, h2, h3⟩ := ttm_step hinj hs hT (j := j) (m := rk j) (B := B) (by rw [hB]; simp [klens, hj])
  rw [klens_update] at h1 h3
  refine ⟨T', h1, h2, h3.congr fun z _ => ?_⟩
  rw [hBW, ttmVal_multiTTM hj]

/-- Contract mode `j`, transposed matrix first. -/
theorem TValid.step' {dims rk : Fin N → ℕ} {V : (Fin N → ℕ) → K} {W : Fin N → ℕ → ℕ → K} {keep : Finset (Fin N)}
    {T : Tensor K} (hT : TValid dims rk V W keep T) {lab : Fin N → Label} (hinj : Injective lab) {s : Label}
    (hs : ∀ k, lab k ≠ s) {j : Fin N} (hj : j ∈ keep) {A : Tensor K} (hA : A.lens = [rk j, dims j])
    (hAW : ∀ x < dims j, ∀ r < rk j, mat A r x = W j x r) :
    ∃ T', einsum (List.ofFn (klens dims rk (keep.erase j))) (List.ofFn (update lab j s))
        [(A, [s, lab j]), (T, List.ofFn lab)] = .ok T' ∧ Canon T' ∧ TValid dims rk V W (keep.erase j) T' := by
  obtain ⟨T', h1, h2, h3⟩ := ttm_step' hinj hs hT (j := j) (m := rk j) (A := A) (by rw [hA]; simp [klens, hj])
  rw [klens_update] at h1 h3
  refine ⟨T', h1, h2, h3.congr fun z hz => ?_⟩
  rw [← ttmVal_multiTTM hj]
  unfold ttmVal
  refine Finset.sum_congr rfl fun x hx => ?_
  beta_reduce
  rw [hAW x (by simpa [klens, hj] using hx) (z j) (by have := hz j; simpa [klens] using this)]

theorem TValid.step2 {dims rk : Fin N → ℕ} {V : (Fin N → ℕ) → K} {W : Fin N → ℕ → ℕ → K} {keep : Finset (Fin N)}
    {T : Tensor K} (hT : TValid dims rk V W keep T) {lab : Fin N → Label} (hinj : Injective lab) {s t : Label}
    (hs : ∀ k, lab k ≠ s) (ht : ∀ k, lab k ≠ t) (hst : s ≠ t) {j j' : Fin N} (hj : j ∈ keep) (hj' : j' ∈ keep)
    (hne : j ≠ j') {B C : Tensor K} (hB : B.lens = [dims j, rk j]) (hBW : mat B = W j)
    (hC : C.lens = [dims j', rk j']) (hCW : mat C = W j') :
    ∃ T', einsum (List.ofFn (klens dims rk ((keep.erase j).erase j'))) (List.ofFn (update (update lab j s) j' t))
        [(T, List.ofFn lab), (B, [lab j, s]), (C, [lab j', t])] = .ok T' ∧ Canon T' ∧
      TValid dims rk V W ((keep.erase j).erase j') T' := by
  obtain ⟨T', h1, h2, h3⟩ := ttm_step2 hinj hs ht hst hT hne (m := rk j) (m' := rk j') (B := B) (C := C)
    (by rw [hB]; simp [klens, hj]) (by rw [hC]; simp [klens, hj'])
  rw [klens_update, klens_update] at h1 h3
  refine ⟨T', h1, h2, h3.congr fun z _ => ?_⟩
  have hj'' : j' ∈ keep.erase j := by simp [hj', hne.symm]
  have e : ttmVal (klens dims rk keep) (Spec.multiTTM dims V W keep) j (mat B) = Spec.multiTTM dims V W (keep.erase j) := by
    funext z; rw [hBW, ttmVal_multiTTM hj]
  rw [e, hCW, ttmVal_multiTTM hj'']

theorem ofFn_set {α : Type} (f : Fin N → α) (j : Fin N) (a : α) : (List.ofFn f).set j.1 a = List.ofFn (update f j a) := by
  apply List.ext_getElem
  · simp
  · intro k h1 h2
    simp only [List.length_ofFn] at h2
    rw [List.getElem_set, List.getElem_ofFn, List.getElem_ofFn]
    by_cases h : j.1 = k
    · subst h; simp
    · rw [if_neg h, update_of_ne]
      intro e; rw [← e] at h; exact h rfl

theorem allLetters_ofFn (N : ℕ) : allLetters N = List.ofFn fun j : Fin N => letter j.1 := by
  unfold allLetters
  apply List.ext_getElem <;> simp

theorem letter_injective (hN : N ≤ 256) : Injective fun j : Fin N => letter j.1 :=
  fun a b h => Fin.ext (letter_inj (by omega) (by omega) h)

end Model
