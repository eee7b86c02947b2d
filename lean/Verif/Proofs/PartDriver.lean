import Verif.Model.PartDriver
import Verif.Proofs.PPGuard
import Verif.Proofs.PPPart
import Verif.Properties.PPPart

/-! # The computations of `alsCP_PP_partupdate` -/

namespace Model

open Finset Properties

section Alt

variable {σ : Type}

/-- `h` is `h'`, except that a PP sweep may be undefined behaviour. -/
def UbSweep (h h' : PPHooks σ) : Prop :=
  h = { h' with ppSweep := h.ppSweep } ∧ ∀ s, h.ppSweep s = h'.ppSweep s ∨ h.ppSweep s = .error .ub

theorem ub_test {c : PPCfg} {h h' : PPHooks σ} {clock : ℕ → ℝ} {pp : Bool} {checked : Prop} {r : PPRun σ} (hu : UbSweep h h') :
    ppTest c h clock pp checked r = ppTest c h' clock pp checked r := by
  rw [hu.1]; rfl

theorem ub_dt {c : PPCfg} {h h' : PPHooks σ} {clock : ℕ → ℝ} (hu : UbSweep h h') : ∀ (fuel : ℕ) (r : PPRun σ),
    dtSubLoop c h clock fuel r = dtSubLoop c h' clock fuel r
  | 0, _ => rfl
  | fuel + 1, r => by
    unfold dtSubLoop
    rw [ub_test hu]
    simp only [ub_dt hu fuel]
    rw [hu.1]

theorem ub_dtSub {c : PPCfg} {h h' : PPHooks σ} {clock : ℕ → ℝ} (hu : UbSweep h h') (fuel : ℕ) (r : PPRun σ) :
    dtSub c h clock fuel r = dtSub c h' clock fuel r := by
  unfold dtSub
  simp only [ub_dt hu]
  rw [hu.1]

theorem ub_pp {c : PPCfg} {h h' : PPHooks σ} {clock : ℕ → ℝ} (hu : UbSweep h h') (init : ℕ) : ∀ (fuel : ℕ) (r : PPRun σ),
    ppSubLoop c h clock init fuel r = ppSubLoop c h' clock init fuel r ∨ ppSubLoop c h clock init fuel r = .error .ub
  | 0, _ => .inl rfl
  | fuel + 1, r => by
    unfold ppSubLoop
    by_cases hi : (r.iter : ℤ) ≤ c.maxiter
    · rw [if_pos hi, if_pos hi, show h.ppFar = h'.ppFar by rw [hu.1]]
      cases hfar : (if c.bench = true then (.ok false : Except Fault Bool) else h'.ppFar r.st) with
      | error x => exact .inl rfl
      | ok far =>
        simp only [bind, Except.bind]
        split
        · exact .inl rfl
        · rw [show ppEnter h init r = ppEnter h' init r by rw [hu.1]; rfl]
          cases ppEnter h' init r with
          | error x => exact .inl rfl
          | ok r1 =>
            simp only [ub_test hu]
            cases ppTest c h' clock true (ppChecked c init r.iter) r1 with
            | error x => exact .inl rfl
            | ok t =>
              simp only
              split
              · exact .inl rfl
              · rcases hu.2 t.1.st with e | e
                · rw [e]
                  cases h'.ppSweep t.1.st with
                  | error x => exact .inl rfl
                  | ok s => exact ub_pp hu init fuel _
                · rw [e]
                  exact .inr rfl
    · rw [if_neg hi, if_neg hi]
      exact .inl rfl

theorem ub_loop {c : PPCfg} {h h' : PPHooks σ} {clock : ℕ → ℝ} (hu : UbSweep h h') (sub : ℕ) : ∀ (fuel : ℕ) (r : PPRun σ),
    ppDriverLoop c h clock sub fuel r = ppDriverLoop c h' clock sub fuel r ∨ ppDriverLoop c h clock sub fuel r = .error .ub
  | 0, _ => .inl rfl
  | fuel + 1, r => by
    unfold ppDriverLoop
    split
    · rw [ub_dtSub hu]
      cases (if c.bench = true then (.ok r : Except Fault (PPRun σ)) else dtSub c h' clock sub r) with
      | error x => exact .inl rfl
      | ok r1 =>
        simp only [bind, Except.bind]
        rcases ub_pp hu r1.iter sub r1 (c := c) (clock := clock) with e | e
        · rw [e]
          cases ppSubLoop c h' clock r1.iter sub r1 with
          | error x => exact .inl rfl
          | ok r2 =>
            simp only
            rw [show h.endRound = h'.endRound by rw [hu.1]]
            exact ub_loop hu sub fuel _
        · rw [e]
          exact .inr rfl
    · exact .inl rfl

end Alt

variable {N : ℕ} {dims : Fin N → ℕ} {R : ℕ} {V : Tensor ℝ} {Winit : List (Tensor ℝ)} {ops : Cache ℝ}

theorem partUpdate_shape (h2 : 2 ≤ N) (ho : PPOps dims R V Winit ops) (hI : Shaped dims R V Winit) {s : PartState}
    (hs : PartShaped dims R V s) {lam ratio : ℝ} {kn : Kern ℝ} (hk : KernOk kn) (i : Fin N) :
    ∃ s', partUpdate N R lam ratio kn ops Winit s i.1 = .ok s' ∧ PartShaped dims R V s' := by
  obtain ⟨M0, o1, o2⟩ := ho.1 i
  have hv := o2.2
  rw [compl_ex1] at hv
  obtain ⟨o3, o4⟩ := valid_single hv
  obtain ⟨Di, d1, _, d2, d3⟩ := mats_get hs.dM i
  obtain ⟨M, m1, m2, m3, m4⟩ := zipT_ok (· + ·) (A := M0) (B := Di) (by rw [o3, d2])
  rw [o3] at m3
  obtain ⟨S, s1, s2, s3, s4⟩ := gramS_ok h2 hs.W lam i (index := swapIdx N i.1) (fun m => mem_swapIdx i.2) (swapIdx_nodup i.1)
  obtain ⟨Wi, w1, _, w2, w3⟩ := mats_get hs.W i
  obtain ⟨T, t1, _, t3, t4⟩ := einsum_matmul w2 s3
  obtain ⟨g, g1, g2, g3, g4⟩ := zipT_ok (fun a b : ℝ => -a + b) (A := M) (B := T) (by rw [m3, t3])
  obtain ⟨W0, a1, _, a2, a3⟩ := mats_get hI i
  have hu := hk.svd R S s3 (by rw [s4]; exact fun a ha b hb => normalMat_symm a ha b hb)
  obtain ⟨X0, D, x1, x2, x3⟩ := svdSolveMod_shape m3 a2 s3 hu.shape ratio
  obtain ⟨dM', p1, p2, p3, p4⟩ := propagate_ok ho (hs.dW.set i x3) (hs.dM.set i (T := zerosLike Di) (by exact d2)) i
  refine ⟨⟨s.W.set i.1 X0, s.G.set i.1 g, s.dW.set i.1 D, dM', s.M.set i.1 M, s.rel⟩, ?_,
    ⟨hs.W.set i x2, by simp [hs.G], hs.dW.set i x3, p2, hs.M.set i m3, hs.rel⟩⟩
  unfold partUpdate
  simp only [o1]
  simp only [bind, Except.bind]
  rw [d1]; simp only
  rw [m1]; simp only
  rw [s1]; simp only
  rw [w1]; simp only
  rw [m3, t1]; simp only
  rw [g1]; simp only
  rw [a1]; simp only
  rw [x1]; simp only
  rw [p1]
  rfl

theorem partUpdates_shape (h2 : 2 ≤ N) (ho : PPOps dims R V Winit ops) (hI : Shaped dims R V Winit) {s : PartState}
    (hs : PartShaped dims R V s) {lam ratio p : ℝ} (hp0 : 0 ≤ p) (hp1 : p ≤ 1) {kn : Kern ℝ} (hk : KernOk kn) {sorted : List ℕ}
    (hsrt : sorted.Perm (List.range N)) :
    ∃ s', partUpdates N R lam ratio kn ops Winit sorted (truncR (N * p)) s = .ok s' ∧ PartShaped dims R V s' := by
  have hlen : sorted.length = N := by simpa using hsrt.length_eq
  have hnN : ⌊(N : ℝ) * p⌋₊ ≤ N := Nat.floor_le_of_le (mul_le_of_le_one_right (by positivity) hp1)
  have htr : (truncR (N * p)).toNat = ⌊(N : ℝ) * p⌋₊ := by
    rw [truncR, if_pos (by positivity), Int.floor_toNat]
  unfold partUpdates
  rw [htr, foldlM_take sorted (fun (s : PartState) (i : ℕ) => partUpdate N R lam ratio kn ops Winit s i) _ (by omega) s]
  have hm : ∀ i ∈ sorted.take ⌊(N : ℝ) * p⌋₊, i < N := fun i hi => List.mem_range.1 (hsrt.mem_iff.1 (List.mem_of_mem_take hi))
  generalize sorted.take ⌊(N : ℝ) * p⌋₊ = l at hm
  induction l generalizing s with
  | nil => exact ⟨s, rfl, hs⟩
  | cons i l ih =>
    obtain ⟨s1, a1, a2⟩ := partUpdate_shape h2 ho hI hs hk ⟨i, hm i (by simp)⟩ (lam := lam) (ratio := ratio)
    obtain ⟨s2, b1, b2⟩ := ih a2 (fun j hj => hm j (by simp [hj]))
    refine ⟨s2, ?_, b2⟩
    rw [List.foldlM_cons]
    simp only at a1
    rw [a1]
    exact b1

open Classical in
/-- The sort, made total: on a list with an incomparable NaN the identity permutation. -/
noncomputable def totalSort (srt : List Rel → List ℕ) (v : List Rel) : List ℕ :=
  if StrictWeak v then srt v else List.range v.length

theorem totalSort_perm {srt : List Rel → List ℕ} (h : SortSpec srt) (v : List Rel) :
    (totalSort srt v).Perm (List.range v.length) := by
  unfold totalSort
  split
  · next hv => exact (h v hv).1
  · exact List.Perm.refl _

/-- The sweep with the total sort. -/
noncomputable def partSweepTotal (N rank : ℕ) (lam ratio p : ℝ) (k : Kern ℝ) (srt : List Rel → List ℕ) (ops : Cache ℝ)
    (Winit : List (Tensor ℝ)) (s : PartState) : Except Fault PartState := do
  let s ← partUpdates N rank lam ratio k ops Winit (totalSort srt s.rel) (truncR (N * p)) s
  let rel ← relatives N s.dM s.M
  let W ← normalize s.W N
  pure { s with W := W, rel := rel }

theorem partSweep_total {rank : ℕ} {lam ratio p : ℝ} {k : Kern ℝ} {srt : List Rel → List ℕ} (s : PartState) :
    partSweep N rank lam ratio p k srt ops Winit s = partSweepTotal N rank lam ratio p k srt ops Winit s ∨
      (¬ StrictWeak s.rel ∧ partSweep N rank lam ratio p k srt ops Winit s = .error .ub) := by
  unfold partSweep partSweepTotal sortIndexes totalSort
  by_cases h : StrictWeak s.rel
  · left
    rw [if_pos h, if_pos h]
    rfl
  · right
    rw [if_neg h]
    exact ⟨h, rfl⟩

theorem partSweepTotal_shape (h2 : 2 ≤ N) (ho : PPOps dims R V Winit ops) (hI : Shaped dims R V Winit) {s : PartState}
    (hs : PartShaped dims R V s) {lam ratio p : ℝ} (hp0 : 0 ≤ p) (hp1 : p ≤ 1) {kn : Kern ℝ} (hk : KernOk kn)
    {srt : List Rel → List ℕ} (hsrt : SortSpec srt) :
    ∃ s', partSweepTotal N R lam ratio p kn srt ops Winit s = .ok s' ∧ PartShaped dims R V s' := by
  have hperm := totalSort_perm hsrt s.rel
  rw [hs.rel] at hperm
  obtain ⟨s1, a1, a2⟩ := partUpdates_shape h2 ho hI hs hp0 hp1 hk hperm (lam := lam) (ratio := ratio)
  obtain ⟨rel, b1, b2⟩ := relatives_ok a2.dM.count a2.M.count
  obtain ⟨W', c1, c2⟩ := normalize_shape a2.W
  refine ⟨{ s1 with W := W', rel := rel }, ?_, ⟨c2, a2.G, a2.dW, a2.dM, a2.M, b2⟩⟩
  unfold partSweepTotal
  simp only [a1, bind, Except.bind, b1, c1]
  rfl

theorem partInit_shape {W G dW : List (Tensor ℝ)} (hW : Shaped dims R V W) (hG : G.length = N) (hdW : Shaped dims R V dW) :
    PartShaped dims R V (partInit N W G dW) :=
  ⟨hW, hG, hdW, zeros_shape hW, zeros_shape hW, by simp [partInit]⟩

/-- The hooks with the total sort. -/
noncomputable def partPPTotal (same : Bool) (N rank : ℕ) (lam ratio tolInit p : ℝ) (k : Kern ℝ) (srt : List Rel → List ℕ)
    (V : Tensor ℝ) : PPHooks PartPPState :=
  { partPPHooks same N rank lam ratio tolInit p k srt V with
    ppSweep := fun s => do
      let t ← partSweepTotal N rank lam ratio p k srt s.cp.ops s.cp.Winit ⟨s.cp.W, s.cp.G, s.cp.dW, s.dM, s.M, s.rel⟩
      pure ⟨{ s.cp with W := t.W, G := t.G, dW := t.dW }, t.dM, t.M, t.rel⟩ }

theorem part_ub (same : Bool) (rank : ℕ) (lam ratio tolInit p : ℝ) (k : Kern ℝ) (srt : List Rel → List ℕ) :
    UbSweep (partPPHooks same N rank lam ratio tolInit p k srt V) (partPPTotal same N rank lam ratio tolInit p k srt V) := by
  refine ⟨rfl, fun s => ?_⟩
  simp only [partPPHooks, partPPTotal]
  rcases partSweep_total (N := N) (rank := rank) (lam := lam) (ratio := ratio) (p := p) (k := k) (srt := srt) (ops := s.cp.ops)
    (Winit := s.cp.Winit) ⟨s.cp.W, s.cp.G, s.cp.dW, s.dM, s.M, s.rel⟩ with e | ⟨-, e⟩
  · rw [e]; exact .inl rfl
  · rw [e]; exact .inr rfl

/-- State in a PP phase. -/
structure PartQ (dims : Fin N → ℕ) (R : ℕ) (V : Tensor ℝ) (same : Bool) (s : PartPPState) : Prop where
  cp : CPQ dims R V s.cp
  ops : ppOperators same N V s.cp.Winit = .ok s.cp.ops
  dM : Shaped dims R V s.dM
  M : Shaped dims R V s.M
  rel : s.rel.length = N

theorem part_check (h2 : 2 ≤ N) (hN : N ≤ 18) {same : Bool} {lam ratio tolInit p : ℝ} {k : Kern ℝ} {srt : List Rel → List ℕ}
    {s : PartPPState} (h : CPI dims R V s.cp) : ∃ g d, gradnorm s.cp.G N = .ok g ∧
      (partPPTotal same N R lam ratio tolInit p k srt V).check s = .ok (s, g, d) := by
  obtain ⟨g, d, h1, h3⟩ := cp_check h2 hN h (same := same) (lam := lam) (ratio := ratio) (tolInit := tolInit) (k := k)
  refine ⟨g, d, h1, ?_⟩
  simp only [partPPTotal, partPPHooks, h3, bind, Except.bind]
  rfl

theorem part_ppBegin (h3 : 3 ≤ N) (h9 : N ≤ 9) (same : Bool) {lam ratio tolInit p : ℝ} {k : Kern ℝ} {srt : List Rel → List ℕ}
    {s : PartPPState} (h : CPI dims R V s.cp) : ∃ ops, ppOperators same N V s.cp.W = .ok ops ∧
      (partPPTotal same N R lam ratio tolInit p k srt V).ppBegin s =
        .ok ⟨⟨s.cp.W, s.cp.G, s.cp.dW.map zerosLike, s.cp.Wprev, s.cp.W, ops⟩, s.cp.W.map zerosLike, s.cp.W.map zerosLike,
          List.replicate N (some ((0 : ℝ) : WithTop ℝ))⟩ ∧
      PartQ dims R V same ⟨⟨s.cp.W, s.cp.G, s.cp.dW.map zerosLike, s.cp.Wprev, s.cp.W, ops⟩, s.cp.W.map zerosLike,
        s.cp.W.map zerosLike, List.replicate N (some ((0 : ℝ) : WithTop ℝ))⟩ := by
  obtain ⟨ops, o1, o2⟩ := ppOperators_ok h3 h9 same h.W
  refine ⟨ops, o1, ?_, ⟨⟨h.W, h.G, zeros_shape h.dW⟩, h.W, o2⟩, o1, zeros_shape h.W, zeros_shape h.W, by simp⟩
  simp only [partPPTotal, partPPHooks, cpPPHooks, o1, bind, Except.bind]
  rfl

theorem part_hooks (h4 : 4 ≤ N) (h5 : N ≠ 5) (h9 : N ≤ 9) (same : Bool) (lam ratio tolInit : ℝ) {p : ℝ} (hp0 : 0 ≤ p)
    (hp1 : p ≤ 1) {k : Kern ℝ} (hk : KernOk k) {srt : List Rel → List ℕ} (hsrt : SortSpec srt) :
    HooksOk (partPPTotal same N R lam ratio tolInit p k srt V) (fun s => CPI dims R V s.cp) (fun s => CPD dims R V s.cp)
      (PartQ dims R V same) := by
  have h := cp_hooks (dims := dims) (R := R) (V := V) h4 h5 h9 same lam ratio tolInit hk
  have lift : ∀ {f : CPPPState → Except Fault CPPPState} {P : CPPPState → Prop} (s : PartPPState), Succ (f s.cp) P →
      Succ (do let c ← f s.cp; pure { s with cp := c } : Except Fault PartPPState) fun s => P s.cp := by
    rintro f P s ⟨c, c1, c2⟩
    rw [c1]
    exact ⟨_, rfl, c2⟩
  refine ⟨fun s hs => hs.i, fun s hs => hs.cp.i, fun s hs => lift s (h.dtBegin _ hs), fun s hs => lift s (h.dtSweep _ hs),
    fun s hs => h.dtClose _ hs, fun s hs => h.ppFar _ hs, fun s hs => ?_, fun s hs => ?_, fun s hs => ?_, fun s hs => ?_,
    fun s hs => lift s (h.acceptD _ hs), fun s hs => ⟨s, rfl, hs⟩, fun s hs => hs⟩
  · obtain ⟨ops, o1, o2, o3⟩ := part_ppBegin (by omega) h9 same hs (lam := lam) (ratio := ratio) (tolInit := tolInit) (p := p)
      (k := k) (srt := srt)
    exact ⟨_, o2, o3⟩
  · obtain ⟨t, t1, t2⟩ := partSweepTotal_shape (by omega) hs.cp.ops hs.cp.init
      (s := ⟨s.cp.W, s.cp.G, s.cp.dW, s.dM, s.M, s.rel⟩) ⟨hs.cp.i.W, hs.cp.i.G, hs.cp.i.dW, hs.dM, hs.M, hs.rel⟩ hp0 hp1 hk hsrt
      (lam := lam) (ratio := ratio)
    refine ⟨⟨{ s.cp with W := t.W, G := t.G, dW := t.dW }, t.dM, t.M, t.rel⟩, ?_,
      ⟨⟨t2.W, t2.G, t2.dW⟩, hs.cp.init, hs.cp.ops⟩, hs.ops, t2.dM, t2.M, t2.rel⟩
    simp only [partPPTotal, t1, bind, Except.bind]
    rfl
  · obtain ⟨g, d, _, e⟩ := part_check (by omega) (by omega) hs.i (same := same) (lam := lam) (ratio := ratio)
      (tolInit := tolInit) (k := k) (p := p) (srt := srt)
    exact ⟨_, e, hs⟩
  · obtain ⟨g, d, _, e⟩ := part_check (by omega) (by omega) hs.cp.i (same := same) (lam := lam) (ratio := ratio)
      (tolInit := tolInit) (k := k) (p := p) (srt := srt)
    exact ⟨_, e, hs⟩

end Model
