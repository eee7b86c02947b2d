import Verif.Proofs.Generators
import Verif.Spec.Generators

/-! # `identitiy_tensor`, `laplacian_tensor` -/

namespace Model

open Finset

variable {K : Type}

theorem letters_map {α : Type} (a n : ℕ) (env : Label → α) :
    (letters a n).map env = (List.range n).map fun j => env (letter (a + j)) := by
  rw [letters, List.range'_eq_map_range, List.map_map, List.map_map]
  rfl

theorem mem_letters {a n : ℕ} {l : Label} : l ∈ letters a n ↔ ∃ j, a ≤ j ∧ j < a + n ∧ l = letter j := by
  simp only [letters, List.mem_map, List.mem_range'_1]
  constructor
  · rintro ⟨j, ⟨h1, h2⟩, rfl⟩; exact ⟨j, h1, h2, rfl⟩
  · rintro ⟨j, h1, h2, rfl⟩; exact ⟨j, ⟨h1, h2⟩, rfl⟩

theorem letters_const (a n s : ℕ) : (letters a n).map (fun _ => s) = List.replicate n s := by
  rw [letters_map]
  simp

/-- An environment giving letter `j` the value `idx j`. -/
def envOf (idx : ℕ → ℕ) (l : Label) : ℕ := idx (((l - 97) % 256 : ℤ)).toNat

theorem envOf_letter (idx : ℕ → ℕ) {j : ℕ} (h : j < 256) : envOf idx (letter j) = idx j := by
  unfold envOf letter
  congr 1
  have : ((97 + (j : ℤ) + 128) % 256 - 128 - 97) % 256 = j := by omega
  rw [this]
  simp

/-- Product of several tensors without summation. -/
theorem einsum_nosum [CommSemiring K] {d : Label → ℕ} {sc : List Label} {ops : List (Tensor K × List Label)}
    (h : ∀ o ∈ ops, o.1.lens = o.2.map d) (hs : ∀ o ∈ ops, ∀ l ∈ o.2, l ∈ sc) :
    ∃ T, einsum (sc.map d) sc ops = .ok T ∧ Canon T ∧
      Rep T sc d fun env => (ops.map fun o => o.1.val (o.2.map env)).prod := by
  obtain ⟨T, h1, h2, h3⟩ := einsum_rep (K := K) (d := d) (sc := sc) (ops := ops) h
  refine ⟨T, h1, h2, h3.congr ?_⟩
  intro env henv
  simp only [exprVal, contracted_eq_nil hs, List.map_nil, sumOver]

/-- A tensor of order `2m` and edge length `s` whose entries are `f`. -/
def Holds (T : Tensor K) (n s : ℕ) (f : (ℕ → ℕ) → K) : Prop :=
  T.lens = List.replicate n s ∧ ∀ idx : ℕ → ℕ, (∀ j < n, idx j < s) → T.val ((List.range n).map idx) = f idx

theorem Holds.rep {T : Tensor K} {n s : ℕ} {f : (ℕ → ℕ) → K} (h : Holds T n s f) (a : ℕ) :
    Rep T (letters a n) (fun _ => s) fun env => f fun j => env (letter (a + j)) := by
  refine ⟨by rw [h.1, letters_const], ?_⟩
  intro env henv
  rw [letters_map]
  exact h.2 _ fun j hj => henv _ (mem_letters.2 ⟨a + j, by omega, by omega, rfl⟩)

theorem Holds.of_rep {T : Tensor K} {n s : ℕ} {f : (ℕ → ℕ) → K} (hn : n ≤ 256)
    (h : Rep T (letters 0 n) (fun _ => s) fun env => f fun j => env (letter j))
    (hf : ∀ a b : ℕ → ℕ, (∀ j < n, a j = b j) → f a = f b) : Holds T n s f := by
  refine ⟨by rw [h.1, letters_const], ?_⟩
  intro idx hidx
  have h2 := h.2 (envOf idx) (by
    intro l hl
    obtain ⟨j, _, hj, rfl⟩ := mem_letters.1 hl
    rw [envOf_letter _ (by omega)]
    exact hidx j (by omega))
  rw [letters_map] at h2
  have e : ((List.range n).map fun j => envOf idx (letter (0 + j))) = (List.range n).map idx := by
    apply List.map_congr_left
    intro j hj
    rw [List.mem_range] at hj
    rw [Nat.zero_add, envOf_letter _ (by omega)]
  rw [e] at h2
  rw [h2]
  exact hf _ _ fun j hj => envOf_letter _ (by omega)

theorem identMat_holds [CommSemiring K] (s : ℕ) : Holds (identMat K s) 2 s (Spec.identity 1) := by
  refine ⟨rfl, ?_⟩
  intro idx hidx
  have h0 := hidx 0 (by omega)
  have h1 := hidx 1 (by omega)
  simp [identMat, setDiag, zeroT, List.range_succ, fits, h0, h1, Spec.identity, Spec.delta]

theorem identity_local [CommSemiring K] (d : ℕ) (a b : ℕ → ℕ) (h : ∀ j < 2 * d, a j = b j) :
    Spec.identity (K := K) d a = Spec.identity d b := by
  unfold Spec.identity
  refine Finset.prod_congr rfl fun k hk => ?_
  rw [Finset.mem_range] at hk
  rw [h _ (by omega), h _ (by omega)]

theorem identStep_ok [CommSemiring K] {s i : ℕ} (hi : 2 * i + 2 ≤ 256) {T : Tensor K}
    (hT : Holds T (2 * i) s (Spec.identity i)) :
    ∃ T', identStep s T i = .ok T' ∧ Canon T' ∧ Holds T' (2 * (i + 1)) s (Spec.identity (i + 1)) := by
  obtain ⟨T', h1, h2, h3⟩ := einsum_two_nosum (sc := letters 0 (2 * i + 2)) (hT.rep 2) ((identMat_holds (K := K) s).rep 0)
    (by
      intro l hl
      obtain ⟨j, _, hj, rfl⟩ := mem_letters.1 hl
      exact mem_letters.2 ⟨j, by omega, by omega, rfl⟩)
    (by
      intro l hl
      obtain ⟨j, _, hj, rfl⟩ := mem_letters.1 hl
      exact mem_letters.2 ⟨j, by omega, by omega, rfl⟩)
  rw [letters_const] at h1
  refine ⟨T', h1, h2, Holds.of_rep hi (h3.congr ?_) (fun a b h => identity_local _ a b h)⟩
  intro env _
  unfold Spec.identity
  rw [Finset.prod_range_one, Finset.prod_range_succ']
  congr 1
  refine Finset.prod_congr rfl fun k _ => ?_
  congr 3 <;> ring

theorem identTensor_ok [CommSemiring K] {s d : ℕ} (h1 : 1 ≤ d) (hd : 2 * d ≤ 256) :
    ∃ T, identTensor K (2 * d) s = .ok T ∧ Holds T (2 * d) s (Spec.identity d) := by
  unfold identTensor
  obtain ⟨T, hT, hP⟩ := foldlM_range'_inv (P := fun i (T : Tensor K) => Holds T (2 * i) s (Spec.identity i))
    (f := identStep s) (s := 1) (n := 2 * d / 2 - 1) (a := identMat K s) (identMat_holds s) (by
      intro j a hj hj2 ha
      obtain ⟨b, hb, _, hb2⟩ := identStep_ok (by omega) ha
      exact ⟨b, hb, hb2⟩)
  refine ⟨T, hT, ?_⟩
  rwa [show 1 + (2 * d / 2 - 1) = d by omega] at hP

/-! ### the matrix `D` -/

theorem mem_offDiag [CommRing K] {s rk : ℕ} {p : ℕ × K} :
    p ∈ offDiagPairs s rk ↔ ∃ r < s - 1, p = (r * s + r + 1, if rk = 0 then -1 else 0) := by
  simp only [offDiagPairs, List.mem_map, List.mem_range]
  constructor
  · rintro ⟨r, hr, rfl⟩; exact ⟨r, hr, rfl⟩
  · rintro ⟨r, hr, rfl⟩; exact ⟨r, hr, rfl⟩

theorem mat_key_inj {s i j i' j' : ℕ} (hi : i < s) (hi' : i' < s) (h : i + s * j = i' + s * j') : i = i' ∧ j = j' := by
  have h1 : i = i' := by
    have := congrArg (· % s) h
    simpa [Nat.add_mul_mod_self_left, Nat.mod_eq_of_lt hi, Nat.mod_eq_of_lt hi'] using this
  subst h1
  exact ⟨rfl, Nat.eq_of_mul_eq_mul_left (by omega : 0 < s) (by omega)⟩

theorem offDiag_write [CommRing K] {np s : ℕ} (hnp : 1 ≤ np) :
    ∃ D, writeT (zeroT K [s, s]) ((List.range np).flatMap fun rk => offDiagPairs s rk) = .ok D ∧ D.lens = [s, s] ∧
      ∀ i < s, ∀ j < s, D.val [i, j] = if i = j + 1 then -1 else 0 := by
  obtain ⟨D, h1, _, h3, h4⟩ := writeT_ok (T := zeroT K [s, s])
    (pairs := (List.range np).flatMap fun rk => offDiagPairs s rk) (by
      intro p hp
      rw [List.mem_flatMap] at hp
      obtain ⟨rk, _, hp⟩ := hp
      obtain ⟨r, hr, rfl⟩ := mem_offDiag.1 hp
      simp only [zeroT, List.prod_cons, List.prod_nil]
      have := gidx_lt (lens := [s, s]) (idx := [r + 1, r])
        (by simp [fits, show r + 1 < s by omega, show r < s by omega])
      simp only [gidx, List.prod_cons, List.prod_nil] at this
      calc r * s + r + 1 = r + 1 + s * (r + s * 0) := by ring
        _ < _ := this)
  refine ⟨D, h1, h3, ?_⟩
  intro i hi j hj
  obtain ⟨h5, h6⟩ := h4 [i, j] (by simp [zeroT, fits, hi, hj])
  have hg : gidx (zeroT K [s, s]).lens [i, j] = i + s * j := by simp [zeroT, gidx]
  rw [hg] at h5 h6
  have hkey : ∀ r < s - 1, r * s + r + 1 = i + s * j → i = j + 1 ∧ r = j := by
    intro r hr he
    have := mat_key_inj (s := s) (i := r + 1) (j := r) (i' := i) (j' := j) (by omega) hi (by rw [← he]; ring)
    omega
  by_cases hij : i = j + 1
  · rw [if_pos hij]
    have hgk : j * s + j + 1 = i + s * j := by rw [hij]; ring
    have hmem : (j * s + j + 1, (-1 : K)) ∈ offDiagPairs (K := K) s 0 :=
      mem_offDiag.2 ⟨j, by omega, by rw [if_pos rfl]⟩
    rw [h5 ⟨_, List.mem_flatMap.2 ⟨0, by rw [List.mem_range]; omega, hmem⟩, hgk⟩, ranks_sum hnp]
    · rw [filter_single (a := (j * s + j + 1, (-1 : K))) _ hmem (by simpa using hgk)]
      · simp
      · intro x hx hq
        obtain ⟨r, hr, rfl⟩ := mem_offDiag.1 hx
        obtain ⟨_, rfl⟩ := hkey r hr (by simpa using hq)
        simp
      · refine List.Nodup.map_on ?_ List.nodup_range
        intro r hr r' hr' h
        rw [List.mem_range] at hr hr'
        have := (Prod.mk.inj h).1
        exact (mat_key_inj (s := s) (i := r + 1) (j := r) (i' := r' + 1) (j' := r') (by omega) (by omega)
          (by linarith [mul_comm s r, mul_comm s r'])).2
    · intro rk hrk p hp
      obtain ⟨r, _, rfl⟩ := mem_offDiag.1 hp
      simp [hrk]
  · rw [if_neg hij]
    rw [h6]
    · rfl
    · rintro ⟨p, hp, he⟩
      rw [List.mem_flatMap] at hp
      obtain ⟨rk, _, hp⟩ := hp
      obtain ⟨r, hr, rfl⟩ := mem_offDiag.1 hp
      exact hij (hkey r hr he).1

theorem lapMat_ok [CommRing K] (c : K) {np s : ℕ} (hnp : 1 ≤ np) :
    ∃ D, lapMat c np s = .ok D ∧ Holds D 2 s fun idx => Spec.tridiag (-1) (-c) (idx 0) (idx 1) := by
  obtain ⟨D, h1, h2, h3⟩ := offDiag_write (K := K) (s := s) hnp
  have hne : letter 8 ≠ letter 9 := by decide
  obtain ⟨Dt, g1, _, g3⟩ := einsum_nosum (K := K) (d := fun _ => s) (sc := [letter 8, letter 9])
    (ops := [(D, [letter 9, letter 8])]) (by simp [h2]) (by simp)
  obtain ⟨E, e1, _, e3, e4⟩ := zipT_ok (fun a b : K => a + c * b) (A := D) (B := Dt) (by rw [h2, g3.1]; rfl)
  refine ⟨setDiag 2 E, ?_, ?_, ?_⟩
  · unfold lapMat
    rw [h1]
    simp only [bind, Except.bind]
    have g1' : einsum [s, s] [letter 8, letter 9] [(D, [letter 9, letter 8])] = .ok Dt := g1
    rw [g1']
    simp only []
    rw [e1]
    rfl
  · show E.lens = _
    rw [e3, h2]; rfl
  · intro idx hidx
    have i0 := hidx 0 (by omega)
    have i1 := hidx 1 (by omega)
    have hf : fits [s, s] [idx 0, idx 1] = true := by simp [fits, i0, i1]
    have hE : E.lens = [s, s] := by rw [e3, h2]
    have hDt : Dt.val [idx 0, idx 1] = D.val [idx 1, idx 0] := by
      have := g3.2 (Function.update (fun _ => idx 0) (letter 9) (idx 1)) (by
        intro l hl
        simp only [List.mem_cons, List.not_mem_nil, or_false] at hl
        rcases hl with rfl | rfl
        · rw [Function.update_of_ne hne]; exact i0
        · rw [Function.update_self]; exact i1)
      simpa [Function.update_of_ne hne] using this
    show (setDiag 2 E).val [idx 0, idx 1] = _
    simp only [setDiag, hE, hf, if_true]
    rw [e4 _ (by rw [h2]; exact hf), hDt, h3 _ i0 _ i1, h3 _ i1 _ i0]
    unfold Spec.tridiag
    simp only [List.getD_cons_zero, List.getD_cons_succ]
    by_cases h : idx 0 = idx 1
    · simp [h]
    · rw [if_neg h, if_neg h]
      by_cases ha : idx 0 = idx 1 + 1
      · rw [if_pos ha, if_pos ha, if_neg (by omega)]; ring
      · rw [if_neg ha, if_neg ha]
        by_cases hb : idx 1 = idx 0 + 1
        · rw [if_pos hb, if_pos hb]; ring
        · rw [if_neg hb, if_neg hb]; ring

/-! ### the sum -/

theorem prod_erase_split {M : Type*} [CommMonoid M] (f : ℕ → M) {k d : ℕ} (h : k < d) :
    ∏ m ∈ (range d).erase k, f m = (∏ m ∈ range k, f m) * ∏ m ∈ range (d - 1 - k), f (k + 1 + m) := by
  induction d with
  | zero => omega
  | succ d ih =>
    by_cases hk : k = d
    · subst hk
      rw [Finset.range_add_one, Finset.erase_insert (by simp)]
      simp
    · have hlt : k < d := by omega
      rw [Finset.range_add_one, Finset.erase_insert_of_ne (fun e => hk e.symm), Finset.prod_insert (by simp), ih hlt,
        show d + 1 - 1 - k = (d - 1 - k) + 1 by omega, Finset.prod_range_succ, show k + 1 + (d - 1 - k) = d by omega]
      rw [mul_comm, mul_assoc]

/-- The `k`-th summand of the Laplacian. -/
def lapTerm [CommRing K] (D : ℕ → ℕ → K) (d k : ℕ) (idx : ℕ → ℕ) : K :=
  D (idx (2 * k)) (idx (2 * k + 1)) * ∏ m ∈ (range d).erase k, Spec.delta (idx (2 * m)) (idx (2 * m + 1))

theorem accumT_ok [CommSemiring K] {V : Tensor K} {n s : ℕ} {f g : (ℕ → ℕ) → K} (hV : Holds V n s f) (hn : n ≤ 256)
    {ops : List (Tensor K × List Label)} (h : ∀ o ∈ ops, o.1.lens = o.2.map fun _ => s)
    (hs : ∀ o ∈ ops, ∀ l ∈ o.2, l ∈ letters 0 n)
    (hg : ∀ idx : ℕ → ℕ, (∀ j < n, idx j < s) →
      (ops.map fun o => o.1.val (o.2.map (envOf idx))).prod = g idx) :
    ∃ V', accumT V (letters 0 n) ops = .ok V' ∧ Holds V' n s fun idx => f idx + g idx := by
  obtain ⟨T, h1, _, h3⟩ := einsum_nosum (sc := letters 0 n) h hs
  rw [letters_const, ← hV.1] at h1
  have hTl : T.lens = V.lens := by rw [h3.1, letters_const, hV.1]
  obtain ⟨E, e1, _, e3, e4⟩ := zipT_ok (fun a b : K => a + b) (A := V) (B := T) hTl.symm
  refine ⟨E, ?_, by rw [e3, hV.1], ?_⟩
  · unfold accumT
    rw [h1]
    exact e1
  · intro idx hidx
    have henv : ∀ l ∈ letters 0 n, envOf idx l < s := by
      intro l hl
      obtain ⟨j, _, hj, rfl⟩ := mem_letters.1 hl
      rw [envOf_letter _ (by omega)]
      exact hidx j (by omega)
    have hl : (letters 0 n).map (envOf idx) = (List.range n).map idx := by
      rw [letters_map]
      apply List.map_congr_left
      intro j hj
      rw [List.mem_range] at hj
      rw [Nat.zero_add, envOf_letter _ (by omega)]
    have hfit : fits V.lens ((List.range n).map idx) = true := by
      rw [hV.1, ← hl, ← letters_const 0 n s]
      exact fits_map.2 henv
    rw [e4 _ hfit, hV.2 idx hidx]
    beta_reduce
    rw [← hg idx hidx]
    congr 1
    rw [← hl]
    exact h3.2 _ henv

theorem Holds.at_env {T : Tensor K} {n s : ℕ} {f : (ℕ → ℕ) → K} (h : Holds T n s f) {a N : ℕ} (hN : N ≤ 256)
    (ha : a + n ≤ N) (idx : ℕ → ℕ) (hidx : ∀ j < N, idx j < s) :
    T.val ((letters a n).map (envOf idx)) = f fun j => envOf idx (letter (a + j)) := by
  refine (h.rep a).2 (envOf idx) ?_
  intro l hl
  obtain ⟨j, _, hj, rfl⟩ := mem_letters.1 hl
  rw [envOf_letter _ (by omega)]
  exact hidx j (by omega)

theorem identity_at [CommSemiring K] {a m N : ℕ} (hN : N ≤ 256) (ha : a + 2 * m ≤ N) (idx : ℕ → ℕ) :
    Spec.identity (K := K) m (fun j => envOf idx (letter (a + j))) =
      ∏ k ∈ range m, Spec.delta (idx (a + 2 * k)) (idx (a + 2 * k + 1)) := by
  unfold Spec.identity
  refine Finset.prod_congr rfl fun k hk => ?_
  rw [Finset.mem_range] at hk
  beta_reduce
  rw [envOf_letter _ (by omega), envOf_letter _ (by omega)]
  rfl

theorem laplacianGen_ok [CommRing K] (c : K) {np s d : ℕ} (hnp : 1 ≤ np) (hd2 : 2 ≤ d) (hd : 2 * d ≤ 256)
    {V : Tensor K} {f : (ℕ → ℕ) → K} (hV : Holds V (2 * d) s f) :
    ∃ T, laplacianGen c np V (2 * d) s = .ok T ∧
      Holds T (2 * d) s fun idx => f idx + Spec.laplacian (Spec.tridiag (-1) (-c)) d idx := by
  obtain ⟨D, hD, hDh⟩ := lapMat_ok c (s := s) hnp
  obtain ⟨I, hI, hIh⟩ := identTensor_ok (K := K) (s := s) (d := d - 1) (by omega) (by omega)
  have e22 : 2 * d - 2 = 2 * (d - 1) := by omega
  have hdd : 2 * d / 2 = d := by omega
  set t := lapTerm (K := K) (Spec.tridiag (-1) (-c)) d with ht
  have hDe : ∀ a, a + 2 ≤ 2 * d → ∀ idx : ℕ → ℕ, (∀ j < 2 * d, idx j < s) →
      D.val ((letters a 2).map (envOf idx)) = Spec.tridiag (-1) (-c) (idx a) (idx (a + 1)) := by
    intro a ha idx hidx
    rw [hDh.at_env hd ha idx hidx]
    simp only [Nat.add_zero]
    rw [envOf_letter _ (by omega), envOf_letter _ (by omega)]
  have hsub : ∀ a n, a + n ≤ 2 * d → ∀ l ∈ letters a n, l ∈ letters 0 (2 * d) := by
    intro a n h l hl
    obtain ⟨j, _, hj, rfl⟩ := mem_letters.1 hl
    exact mem_letters.2 ⟨j, by omega, by omega, rfl⟩
  obtain ⟨V1, hV1, hV1h⟩ := accumT_ok (g := t 0) hV hd
    (ops := [(D, letters 0 2), (I, letters 2 (2 * d - 2))])
    (by simp [hDh.1, hIh.1, letters, e22, List.replicate_succ])
    (by
      intro o ho
      simp only [List.mem_cons, List.not_mem_nil, or_false] at ho
      rcases ho with rfl | rfl
      · exact hsub 0 2 (by omega)
      · exact hsub 2 _ (by omega))
    (by
      intro idx hidx
      simp only [List.map_cons, List.map_nil, List.prod_cons, List.prod_nil, mul_one]
      rw [hDe 0 (by omega) idx hidx, e22, hIh.at_env hd (by omega) idx hidx, identity_at hd (by omega), ht, lapTerm,
        prod_erase_split _ (by omega)]
      simp only [Finset.range_zero, Finset.prod_empty, one_mul, Nat.mul_zero, Nat.sub_zero]
      congr 1
      refine Finset.prod_congr rfl fun k _ => ?_
      congr 2 <;> ring)
  obtain ⟨V2, hV2, hV2h⟩ := accumT_ok (g := t (d - 1)) hV1h hd
    (ops := [(I, letters 0 (2 * d - 2)), (D, letters (2 * d - 2) 2)])
    (by simp [hDh.1, hIh.1, letters, e22, List.replicate_succ])
    (by
      intro o ho
      simp only [List.mem_cons, List.not_mem_nil, or_false] at ho
      rcases ho with rfl | rfl
      · exact hsub 0 _ (by omega)
      · exact hsub _ 2 (by omega))
    (by
      intro idx hidx
      simp only [List.map_cons, List.map_nil, List.prod_cons, List.prod_nil, mul_one]
      rw [hDe _ (by omega) idx hidx, e22, hIh.at_env hd (by omega) idx hidx, identity_at hd (by omega), ht, lapTerm,
        prod_erase_split _ (by omega)]
      simp only [Nat.sub_self, Finset.range_zero, Finset.prod_empty, mul_one, Nat.zero_add]
      rw [mul_comm])
  obtain ⟨V3, hV3, hV3h⟩ := foldlM_range'_inv (f := lapStep D (2 * d) s) (s := 2) (n := 2 * d / 2 - 2) (a := V2)
    (P := fun k V => Holds V (2 * d) s fun idx => f idx + t 0 idx + t (d - 1) idx + ∑ m ∈ Finset.Ico 1 (k - 1), t m idx)
    (by simpa using hV2h) (by
      intro k U hk hk2 hU
      rw [hdd] at hk2
      obtain ⟨I1, hI1, hI1h⟩ := identTensor_ok (K := K) (s := s) (d := k - 1) (by omega) (by omega)
      obtain ⟨I2, hI2, hI2h⟩ := identTensor_ok (K := K) (s := s) (d := d - k) (by omega) (by omega)
      have e1 : 2 * d - 2 * k = 2 * (d - k) := by omega
      obtain ⟨U', hU', hU'h⟩ := accumT_ok (g := t (k - 1)) hU hd
        (ops := [(I1, letters 0 (2 * (k - 1))), (D, letters (2 * (k - 1)) 2), (I2, letters (2 * k) (2 * d - 2 * k))])
        (by simp [hDh.1, hI1h.1, hI2h.1, letters, e1, List.replicate_succ])
        (by
          intro o ho
          simp only [List.mem_cons, List.not_mem_nil, or_false] at ho
          rcases ho with rfl | rfl | rfl
          · exact hsub 0 _ (by omega)
          · exact hsub _ 2 (by omega)
          · exact hsub _ _ (by omega))
        (by
          intro idx hidx
          simp only [List.map_cons, List.map_nil, List.prod_cons, List.prod_nil, mul_one]
          rw [hDe _ (by omega) idx hidx, hI1h.at_env hd (by omega) idx hidx, identity_at hd (by omega), e1,
            hI2h.at_env hd (by omega) idx hidx, identity_at hd (by omega), ht, lapTerm,
            prod_erase_split _ (show k - 1 < d by omega)]
          rw [mul_left_comm]
          congr 2
          · refine Finset.prod_congr rfl fun m _ => ?_
            rw [Nat.zero_add]
          · rw [show d - 1 - (k - 1) = d - k by omega]
            refine Finset.prod_congr rfl fun m _ => ?_
            rw [show k - 1 + 1 + m = k + m by omega, Nat.mul_add])
      refine ⟨U', ?_, hU'h.1, ?_⟩
      · unfold lapStep
        rw [hI1]
        simp only [bind, Except.bind]
        rw [hdd, hI2]
        exact hU'
      · intro idx hidx
        rw [hU'h.2 idx hidx]
        beta_reduce
        rw [show k + 1 - 1 = (k - 1) + 1 by omega, Finset.sum_Ico_succ_top (by omega)]
        ring)
  refine ⟨V3, ?_, hV3h.1, ?_⟩
  · unfold laplacianGen
    rw [if_neg (by omega), hD]
    simp only [bind, Except.bind]
    rw [show identTensor K (2 * d - 2) s = .ok I by rw [e22]; exact hI]
    simp only []
    rw [hV1]
    simp only []
    rw [hV2]
    exact hV3
  · intro idx hidx
    rw [hV3h.2 idx hidx]
    beta_reduce
    rw [hdd, show 2 + (d - 2) - 1 = d - 1 by omega]
    have : Spec.laplacian (Spec.tridiag (-1) (-c)) d idx = ∑ k ∈ range d, t k idx := rfl
    have h2 : ∑ k ∈ range d, t k idx = t 0 idx + ∑ m ∈ Finset.Ico 1 (d - 1), t m idx + t (d - 1) idx := by
      conv_lhs => rw [show d = (d - 1) + 1 by omega]
      rw [Finset.sum_range_succ, Finset.range_eq_Ico, Finset.sum_eq_sum_Ico_succ_bot (by omega)]
    rw [this, h2]
    ring

/-- For `N = 2` the identity tensor of order 0 is requested and an index string of length 0 is used for an order-2 tensor. -/
theorem laplacianGen_two [CommRing K] (c : K) {np s : ℕ} (hnp : 1 ≤ np) (V : Tensor K) :
    laplacianGen c np V 2 s = .error .ub := by
  obtain ⟨D, hD, hDh⟩ := lapMat_ok c (s := s) hnp
  unfold laplacianGen
  rw [if_neg (by omega), hD]
  simp only [bind, Except.bind]
  have : identTensor K (2 - 2) s = .ok (identMat K s) := rfl
  rw [this]
  simp only [accumT, bind, Except.bind]
  have : einsum V.lens (letters 0 2) [(D, letters 0 2), (identMat K s, letters 2 (2 - 2))] = .error .ub := by
    unfold einsum
    rw [if_pos]
    right
    exact ⟨(identMat K s, letters 2 (2 - 2)), by simp, by simp [letters, identMat, setDiag, zeroT]⟩
  rw [this]

/-! ### odd orders -/

/-- CTF reads only as many characters of an index string as the tensor has modes. -/
theorem einsum_trunc [CommSemiring K] (lensC : List ℕ) (sc : List Label) {ops ops' : List (Tensor K × List Label)}
    (h : ∀ o ∈ ops, o.1.lens.length ≤ o.2.length) (h' : ∀ o ∈ ops', o.1.lens.length ≤ o.2.length)
    (e : (ops.map fun o => (o.1, o.2.take o.1.lens.length)) = ops'.map fun o => (o.1, o.2.take o.1.lens.length)) :
    einsum lensC sc ops = einsum lensC sc ops' := by
  unfold einsum
  have n1 : ¬ ∃ o ∈ ops, o.2.length < o.1.lens.length := by
    rintro ⟨o, ho, hl⟩
    exact absurd (h o ho) (by omega)
  have n2 : ¬ ∃ o ∈ ops', o.2.length < o.1.lens.length := by
    rintro ⟨o, ho, hl⟩
    exact absurd (h' o ho) (by omega)
  simp only [n1, n2, or_false]
  rw [e]

theorem letters_take (a : ℕ) {m n : ℕ} (h : m ≤ n) : (letters a n).take m = letters a m := by
  unfold letters
  rw [← List.map_take]
  congr 1
  apply List.ext_getElem
  · simp [h]
  · intro i h1 h2
    simp

/-- For odd `N` the strings of the first two terms are one letter longer than the identity they index; the extra letter is ignored
and the corresponding mode of `V` is left free. -/
theorem laplacianGen_odd [CommRing K] (c : K) {np s d : ℕ} (hnp : 1 ≤ np) (hd2 : 2 ≤ d) (hd : 2 * d + 1 ≤ 256)
    {V : Tensor K} {f : (ℕ → ℕ) → K} (hV : Holds V (2 * d + 1) s f) :
    ∃ T, laplacianGen c np V (2 * d + 1) s = .ok T ∧
      Holds T (2 * d + 1) s fun idx => f idx +
        (∑ k ∈ range (d - 1), Spec.tridiag (-1) (-c) (idx (2 * k)) (idx (2 * k + 1)) *
          ∏ m ∈ (range d).erase k, Spec.delta (idx (2 * m)) (idx (2 * m + 1))) +
        Spec.tridiag (-1) (-c) (idx (2 * d - 1)) (idx (2 * d)) *
          ∏ m ∈ range (d - 1), Spec.delta (idx (2 * m)) (idx (2 * m + 1)) := by
  obtain ⟨D, hD, hDh⟩ := lapMat_ok c (s := s) hnp
  obtain ⟨I, hI, hIh⟩ := identTensor_ok (K := K) (s := s) (d := d - 1) (by omega) (by omega)
  have e22 : 2 * d + 1 - 2 = 2 * (d - 1) + 1 := by omega
  have hdd : (2 * d + 1) / 2 = d := by omega
  have hid : identTensor K (2 * d + 1 - 2) s = .ok I := by
    have : identTensor K (2 * d + 1 - 2) s = identTensor K (2 * (d - 1)) s := by
      unfold identTensor
      rw [show (2 * d + 1 - 2) / 2 = 2 * (d - 1) / 2 by omega]
    rw [this, hI]
  set t := lapTerm (K := K) (Spec.tridiag (-1) (-c)) d with ht
  set u : (ℕ → ℕ) → K := fun idx => Spec.tridiag (-1) (-c) (idx (2 * d - 1)) (idx (2 * d)) *
          ∏ m ∈ range (d - 1), Spec.delta (idx (2 * m)) (idx (2 * m + 1)) with hu
  have hDe : ∀ a, a + 2 ≤ 2 * d + 1 → ∀ idx : ℕ → ℕ, (∀ j < 2 * d + 1, idx j < s) →
      D.val ((letters a 2).map (envOf idx)) = Spec.tridiag (-1) (-c) (idx a) (idx (a + 1)) := by
    intro a ha idx hidx
    rw [hDh.at_env hd ha idx hidx]
    simp only [Nat.add_zero]
    rw [envOf_letter _ (by omega), envOf_letter _ (by omega)]
  have hsub : ∀ a n, a + n ≤ 2 * d + 1 → ∀ l ∈ letters a n, l ∈ letters 0 (2 * d + 1) := by
    intro a n h l hl
    obtain ⟨j, _, hj, rfl⟩ := mem_letters.1 hl
    exact mem_letters.2 ⟨j, by omega, by omega, rfl⟩
  have hDl : D.lens.length = 2 := by rw [hDh.1]; simp
  have hIl : I.lens.length = 2 * (d - 1) := by rw [hIh.1]; simp
  have ll : ∀ a n, (letters a n).length = n := by intro a n; simp [letters]
  obtain ⟨V1, hV1, hV1h⟩ := accumT_ok (g := t 0) hV hd
    (ops := [(D, letters 0 2), (I, letters 2 (2 * (d - 1)))])
    (by simp [hDh.1, hIh.1, letters, List.replicate_succ])
    (by
      intro o ho
      simp only [List.mem_cons, List.not_mem_nil, or_false] at ho
      rcases ho with rfl | rfl
      · exact hsub 0 2 (by omega)
      · exact hsub 2 _ (by omega))
    (by
      intro idx hidx
      simp only [List.map_cons, List.map_nil, List.prod_cons, List.prod_nil, mul_one]
      rw [hDe 0 (by omega) idx hidx, hIh.at_env hd (by omega) idx hidx, identity_at hd (by omega), ht, lapTerm,
        prod_erase_split _ (by omega)]
      simp only [Finset.range_zero, Finset.prod_empty, one_mul, Nat.mul_zero, Nat.sub_zero]
      congr 1
      refine Finset.prod_congr rfl fun k _ => ?_
      congr 2 <;> ring)
  obtain ⟨V2, hV2, hV2h⟩ := accumT_ok (g := u) hV1h hd
    (ops := [(I, letters 0 (2 * (d - 1))), (D, letters (2 * d + 1 - 2) 2)])
    (by simp [hDh.1, hIh.1, letters, List.replicate_succ])
    (by
      intro o ho
      simp only [List.mem_cons, List.not_mem_nil, or_false] at ho
      rcases ho with rfl | rfl
      · exact hsub 0 _ (by omega)
      · exact hsub _ 2 (by omega))
    (by
      intro idx hidx
      simp only [List.map_cons, List.map_nil, List.prod_cons, List.prod_nil, mul_one]
      rw [hDe _ (by omega) idx hidx, hIh.at_env hd (by omega) idx hidx, identity_at hd (by omega), hu]
      simp only [Nat.zero_add]
      rw [mul_comm, show 2 * d + 1 - 2 = 2 * d - 1 by omega, show 2 * d - 1 + 1 = 2 * d by omega])
  obtain ⟨V3, hV3, hV3h⟩ := foldlM_range'_inv (f := lapStep D (2 * d + 1) s) (s := 2) (n := (2 * d + 1) / 2 - 2) (a := V2)
    (P := fun k V => Holds V (2 * d + 1) s fun idx => f idx + t 0 idx + u idx + ∑ m ∈ Finset.Ico 1 (k - 1), t m idx)
    (by simpa using hV2h) (by
      intro k U hk hk2 hU
      rw [hdd] at hk2
      obtain ⟨I1, hI1, hI1h⟩ := identTensor_ok (K := K) (s := s) (d := k - 1) (by omega) (by omega)
      obtain ⟨I2, hI2, hI2h⟩ := identTensor_ok (K := K) (s := s) (d := d - k) (by omega) (by omega)
      have e1 : 2 * d - 2 * k = 2 * (d - k) := by omega
      obtain ⟨U', hU', hU'h⟩ := accumT_ok (g := t (k - 1)) hU hd
        (ops := [(I1, letters 0 (2 * (k - 1))), (D, letters (2 * (k - 1)) 2), (I2, letters (2 * k) (2 * d - 2 * k))])
        (by simp [hDh.1, hI1h.1, hI2h.1, letters, e1, List.replicate_succ])
        (by
          intro o ho
          simp only [List.mem_cons, List.not_mem_nil, or_false] at ho
          rcases ho with rfl | rfl | rfl
          · exact hsub 0 _ (by omega)
          · exact hsub _ 2 (by omega)
          · exact hsub _ _ (by omega))
        (by
          intro idx hidx
          simp only [List.map_cons, List.map_nil, List.prod_cons, List.prod_nil, mul_one]
          rw [hDe _ (by omega) idx hidx, hI1h.at_env hd (by omega) idx hidx, identity_at hd (by omega), e1,
            hI2h.at_env hd (by omega) idx hidx, identity_at hd (by omega), ht, lapTerm,
            prod_erase_split _ (show k - 1 < d by omega)]
          rw [mul_left_comm]
          congr 2
          · refine Finset.prod_congr rfl fun m _ => ?_
            rw [Nat.zero_add]
          · rw [show d - 1 - (k - 1) = d - k by omega]
            refine Finset.prod_congr rfl fun m _ => ?_
            rw [show k - 1 + 1 + m = k + m by omega, Nat.mul_add])
      refine ⟨U', ?_, hU'h.1, ?_⟩
      · unfold lapStep
        rw [hI1]
        simp only [bind, Except.bind]
        rw [hdd, hI2]
        exact hU'
      · intro idx hidx
        rw [hU'h.2 idx hidx]
        beta_reduce
        rw [show k + 1 - 1 = (k - 1) + 1 by omega, Finset.sum_Ico_succ_top (by omega)]
        ring)
  have t1 : accumT V (letters 0 (2 * d + 1)) [(D, letters 0 2), (I, letters 2 (2 * d + 1 - 2))] =
      accumT V (letters 0 (2 * d + 1)) [(D, letters 0 2), (I, letters 2 (2 * (d - 1)))] := by
    unfold accumT
    rw [einsum_trunc _ _ (ops' := [(D, letters 0 2), (I, letters 2 (2 * (d - 1)))]) (by simp [ll, hDl, hIl]; omega)
      (by simp [ll, hDl, hIl]) (by simp only [List.map_cons, List.map_nil, hDl, hIl]; rw [letters_take _ (le_refl 2), letters_take _ (show 2 * (d - 1) ≤ 2 * d + 1 - 2 by omega), letters_take _ (le_refl (2 * (d - 1)))])]
  have t2 : accumT V1 (letters 0 (2 * d + 1)) [(I, letters 0 (2 * d + 1 - 2)), (D, letters (2 * d + 1 - 2) 2)] =
      accumT V1 (letters 0 (2 * d + 1)) [(I, letters 0 (2 * (d - 1))), (D, letters (2 * d + 1 - 2) 2)] := by
    unfold accumT
    rw [einsum_trunc _ _ (ops' := [(I, letters 0 (2 * (d - 1))), (D, letters (2 * d + 1 - 2) 2)]) (by simp [ll, hDl, hIl]; omega)
      (by simp [ll, hDl, hIl]) (by simp only [List.map_cons, List.map_nil, hDl, hIl]; rw [letters_take _ (le_refl 2), letters_take _ (show 2 * (d - 1) ≤ 2 * d + 1 - 2 by omega), letters_take _ (le_refl (2 * (d - 1)))])]
  refine ⟨V3, ?_, hV3h.1, ?_⟩
  · unfold laplacianGen
    rw [if_neg (by omega), hD]
    simp only [bind, Except.bind]
    rw [hid]
    simp only []
    rw [t1, hV1]
    simp only []
    rw [t2, hV2]
    exact hV3
  · intro idx hidx
    rw [hV3h.2 idx hidx]
    beta_reduce
    rw [hdd, show 2 + (d - 2) - 1 = d - 1 by omega]
    have : (∑ k ∈ range (d - 1), Spec.tridiag (-1) (-c) (idx (2 * k)) (idx (2 * k + 1)) *
          ∏ m ∈ (range d).erase k, Spec.delta (idx (2 * m)) (idx (2 * m + 1))) = ∑ k ∈ range (d - 1), t k idx := rfl
    have h2 : ∑ k ∈ range (d - 1), t k idx = t 0 idx + ∑ m ∈ Finset.Ico 1 (d - 1), t m idx := by
      rw [Finset.range_eq_Ico, Finset.sum_eq_sum_Ico_succ_bot (by omega)]
    rw [this, h2]
    ring

end Model
