import Verif.Model.Bench
import Verif.Proofs.PPDriverCP

/-! # Lemmas for pp_bench.cxx -/

namespace Model

open Properties

/-! ## A sweep overwrites all gradient matrices without reading them -/

theorem legacyUpdate_factor {K : Type} [Field K] (order rank : ℕ) (lam : K) (solve : Spec.Solver K) (tree : LTree) (V : Tensor K)
    (F W : List (Tensor K)) (c : Cache K) (i : ℕ) :
    ∃ e : Except Fault (Tensor K × Tensor K × Cache K), ∀ G, legacyUpdate order rank lam solve tree V F (⟨W, G⟩, c) i =
      e.map fun x => (⟨W.set i x.1, G.set i x.2.1⟩, x.2.2) := by
  unfold legacyUpdate modeTail
  simp only [bind, Except.bind]
  cases legacyM order tree V W c i with
  | error x => exact ⟨.error x, fun _ => rfl⟩
  | ok r =>
    simp only
    cases gramS (swapIdx order i) rank lam W with
    | error x => exact ⟨.error x, fun _ => rfl⟩
    | ok S =>
      simp only
      cases rd F i with
      | error x => exact ⟨.error x, fun _ => rfl⟩
      | ok Fi =>
        simp only
        cases zipT (fun x y : K => x + y) r.1 Fi with
        | error x => exact ⟨.error x, fun _ => rfl⟩
        | ok M =>
          simp only
          cases rd W i with
          | error x => exact ⟨.error x, fun _ => rfl⟩
          | ok Wm =>
            simp only
            cases einsum M.lens [li, lj] [(Wm, [li, lk]), (S, [lk, lj])] with
            | error x => exact ⟨.error x, fun _ => rfl⟩
            | ok WS =>
              simp only
              cases zipT (fun a b : K => -a + b) M WS with
              | error x => exact ⟨.error x, fun _ => rfl⟩
              | ok g => exact ⟨.ok (solveT solve M S, g, r.2), fun _ => rfl⟩

theorem legacyUpdates_lockstep {K : Type} [Field K] {order rank : ℕ} {lam : K} {solve : Spec.Solver K} {tree : LTree} {V : Tensor K}
    {F : List (Tensor K)} : ∀ (l : List ℕ) (W G G' : List (Tensor K)) (c : Cache K) (r r' : Fac K × Cache K),
    G.length = G'.length → l.foldlM (legacyUpdate order rank lam solve tree V F) (⟨W, G⟩, c) = .ok r →
    l.foldlM (legacyUpdate order rank lam solve tree V F) (⟨W, G'⟩, c) = .ok r' →
    r.1.W = r'.1.W ∧ r.1.G.length = r'.1.G.length ∧ ∀ i : ℕ, (i ∈ l ∨ G[i]? = G'[i]?) → r.1.G[i]? = r'.1.G[i]?
  | [], W, G, G', c, r, r', hl, h, h' => by
    have e := Except.ok.inj h
    have e' := Except.ok.inj h'
    rw [← e, ← e']
    exact ⟨rfl, hl, fun i hi => hi.resolve_left (by simp)⟩
  | a :: l, W, G, G', c, r, r', hl, h, h' => by
    obtain ⟨e, he⟩ := legacyUpdate_factor order rank lam solve tree V F W c a
    simp only [List.foldlM_cons, bind, Except.bind, he] at h h'
    cases e with
    | error x => simp [Except.map] at h
    | ok x =>
      simp only [Except.map] at h h'
      obtain ⟨a1, a2, a3⟩ := legacyUpdates_lockstep l _ _ _ _ _ _ (by simp [hl]) h h'
      refine ⟨a1, a2, fun i hi => a3 i ?_⟩
      by_cases ha : i = a
      · right
        subst ha
        by_cases hb : i < G.length
        · rw [List.getElem?_set_self hb, List.getElem?_set_self (by omega)]
        · rw [List.getElem?_eq_none (by simp; omega), List.getElem?_eq_none (by simp; omega)]
      · rcases hi with hi | hi
        · exact .inl ((List.mem_cons.1 hi).resolve_left ha)
        · right
          rw [List.getElem?_set_ne (Ne.symm ha), List.getElem?_set_ne (Ne.symm ha), hi]

theorem legacySweep_indep {order rank : ℕ} {lam : ℝ} {solve : Spec.Solver ℝ} {V : Tensor ℝ} {F W G G' : List (Tensor ℝ)} {f f' : Fac ℝ}
    (hG : G.length = order) (hG' : G'.length = order) (hf : f.G.length = order) (hf' : f'.G.length = order)
    (h : legacySweep order rank lam solve V F ⟨W, G⟩ = .ok f)
    (h' : legacySweep order rank lam solve V F ⟨W, G'⟩ = .ok f') : f = f' := by
  unfold legacySweep legacyUpdates at h h'
  simp only [bind, Except.bind] at h h'
  cases e : (List.range order).foldlM (legacyUpdate order rank lam solve (constructDT 0 (order - 1) {}) V F) (⟨W, G⟩, []) with
  | error x => rw [e] at h; cases h
  | ok r =>
    cases e' : (List.range order).foldlM (legacyUpdate order rank lam solve (constructDT 0 (order - 1) {}) V F) (⟨W, G'⟩, []) with
    | error x => rw [e'] at h'; cases h'
    | ok r' =>
      obtain ⟨a1, a2, a3⟩ := legacyUpdates_lockstep _ _ _ _ _ _ _ (hG.trans hG'.symm) e e'
      rw [e] at h
      rw [e'] at h'
      simp only [pure, Except.pure] at h h'
      rw [← a1] at h'
      cases en : normalize r.1.W order with
      | error x => rw [en] at h; cases h
      | ok W1 =>
        rw [en] at h h'
        have h1 := Except.ok.inj h
        have h2 := Except.ok.inj h'
        rw [← h1] at hf ⊢
        rw [← h2] at hf' ⊢
        simp only at hf hf'
        congr 1
        apply List.ext_getElem?
        intro i
        by_cases hi : i < order
        · exact a3 i (.inl (List.mem_range.2 hi))
        · rw [List.getElem?_eq_none (by omega), List.getElem?_eq_none (by omega)]

theorem ppUpdate_factor (N rank : ℕ) (lam ratio : ℝ) (k : Kern ℝ) (ops : Cache ℝ) (Wi0 W dW : List (Tensor ℝ)) (i : ℕ) :
    ∃ e : Except Fault (Tensor ℝ × Tensor ℝ × Tensor ℝ), ∀ G, ppUpdate N rank lam ratio k ops Wi0 ⟨W, G, dW⟩ i =
      e.map fun x => ⟨W.set i x.1, G.set i x.2.1, dW.set i x.2.2⟩ := by
  unfold ppUpdate
  simp only [bind, Except.bind]
  cases ppM N ops dW i with
  | error x => exact ⟨.error x, fun _ => rfl⟩
  | ok M =>
    simp only
    cases gramS (swapIdx N i) rank lam W with
    | error x => exact ⟨.error x, fun _ => rfl⟩
    | ok S =>
      simp only
      cases rd W i with
      | error x => exact ⟨.error x, fun _ => rfl⟩
      | ok Wm =>
        simp only
        cases einsum M.lens [li, lj] [(Wm, [li, lk]), (S, [lk, lj])] with
        | error x => exact ⟨.error x, fun _ => rfl⟩
        | ok WS =>
          simp only
          cases zipT (fun a b : ℝ => -a + b) M WS with
          | error x => exact ⟨.error x, fun _ => rfl⟩
          | ok g =>
            simp only
            cases rd Wi0 i with
            | error x => exact ⟨.error x, fun _ => rfl⟩
            | ok w0 =>
              simp only
              cases svdSolveMod k M w0 S ratio with
              | error x => exact ⟨.error x, fun _ => rfl⟩
              | ok r => exact ⟨.ok (r.1, g, r.2), fun _ => rfl⟩

theorem ppUpdates_lockstep {N rank : ℕ} {lam ratio : ℝ} {k : Kern ℝ} {ops : Cache ℝ} {Wi0 : List (Tensor ℝ)} :
    ∀ (l : List ℕ) (W G G' dW : List (Tensor ℝ)) (r r' : PPState ℝ),
    G.length = G'.length → l.foldlM (ppUpdate N rank lam ratio k ops Wi0) ⟨W, G, dW⟩ = .ok r →
    l.foldlM (ppUpdate N rank lam ratio k ops Wi0) ⟨W, G', dW⟩ = .ok r' →
    r.W = r'.W ∧ r.dW = r'.dW ∧ r.G.length = r'.G.length ∧ ∀ i : ℕ, (i ∈ l ∨ G[i]? = G'[i]?) → r.G[i]? = r'.G[i]?
  | [], W, G, G', dW, r, r', hl, h, h' => by
    have e := Except.ok.inj h
    have e' := Except.ok.inj h'
    rw [← e, ← e']
    exact ⟨rfl, rfl, hl, fun i hi => hi.resolve_left (by simp)⟩
  | a :: l, W, G, G', dW, r, r', hl, h, h' => by
    obtain ⟨e, he⟩ := ppUpdate_factor N rank lam ratio k ops Wi0 W dW a
    simp only [List.foldlM_cons, bind, Except.bind, he] at h h'
    cases e with
    | error x => simp [Except.map] at h
    | ok x =>
      simp only [Except.map] at h h'
      obtain ⟨a1, a0, a2, a3⟩ := ppUpdates_lockstep l _ _ _ _ _ _ (by simp [hl]) h h'
      refine ⟨a1, a0, a2, fun i hi => a3 i ?_⟩
      by_cases ha : i = a
      · right
        subst ha
        by_cases hb : i < G.length
        · rw [List.getElem?_set_self hb, List.getElem?_set_self (by omega)]
        · rw [List.getElem?_eq_none (by simp; omega), List.getElem?_eq_none (by simp; omega)]
      · rcases hi with hi | hi
        · exact .inl ((List.mem_cons.1 hi).resolve_left ha)
        · right
          rw [List.getElem?_set_ne (Ne.symm ha), List.getElem?_set_ne (Ne.symm ha), hi]

theorem ppSweep_indep {N rank : ℕ} {lam ratio : ℝ} {k : Kern ℝ} {ops : Cache ℝ} {Wi0 W G G' dW : List (Tensor ℝ)} {f f' : PPState ℝ}
    (hG : G.length = N) (hG' : G'.length = N) (hf : f.G.length = N) (hf' : f'.G.length = N)
    (h : ppSweep N rank lam ratio k ops Wi0 ⟨W, G, dW⟩ = .ok f)
    (h' : ppSweep N rank lam ratio k ops Wi0 ⟨W, G', dW⟩ = .ok f') : f = f' := by
  unfold ppSweep ppUpdates at h h'
  simp only [bind, Except.bind] at h h'
  cases e : (List.range N).foldlM (ppUpdate N rank lam ratio k ops Wi0) ⟨W, G, dW⟩ with
  | error x => rw [e] at h; cases h
  | ok r =>
    cases e' : (List.range N).foldlM (ppUpdate N rank lam ratio k ops Wi0) ⟨W, G', dW⟩ with
    | error x => rw [e'] at h'; cases h'
    | ok r' =>
      obtain ⟨a1, a0, a2, a3⟩ := ppUpdates_lockstep _ _ _ _ _ _ _ (hG.trans hG'.symm) e e'
      rw [e] at h
      rw [e'] at h'
      simp only [pure, Except.pure] at h h'
      rw [← a1] at h'
      cases en : normalize r.W N with
      | error x => rw [en] at h; cases h
      | ok W1 =>
        rw [en] at h h'
        have h1 := Except.ok.inj h
        have h2 := Except.ok.inj h'
        rw [← h1] at hf ⊢
        rw [← h2] at hf' ⊢
        simp only at hf hf' ⊢
        rw [a0]
        congr 1
        apply List.ext_getElem?
        intro i
        by_cases hi : i < N
        · exact a3 i (.inl (List.mem_range.2 hi))
        · rw [List.getElem?_eq_none (by omega), List.getElem?_eq_none (by omega)]

/-! ## Repetitions -/

/-- A loop all of whose passes succeed: what is carried over (`b`) and the results (`a`). -/
theorem foldlM_chain {α β γ : Type} {f : γ × β × List α → ℕ → Except Fault (γ × β × List α)} {nextC : α → γ} {next : α → β}
    {Inv : γ → β → Prop} {P : ℕ → γ → β → α → Prop}
    (hf : ∀ i c b, Inv c b → ∃ a, (∀ l, f (c, b, l) i = .ok (nextC a, next a, l ++ [a])) ∧ P i c b a ∧ Inv (nextC a) (next a))
    {c0 : γ} {b0 : β} (h0 : Inv c0 b0) :
    ∃ (a : ℕ → α) (b : ℕ → β) (c : ℕ → γ), b 0 = b0 ∧ c 0 = c0 ∧ (∀ i, b (i + 1) = next (a i) ∧ c (i + 1) = nextC (a i)) ∧
      (∀ i, P i (c i) (b i) (a i) ∧ Inv (c i) (b i)) ∧
      ∀ n, (List.range n).foldlM f (c0, b0, []) = .ok (c n, b n, (List.range n).map a) := by
  have hf' : ∀ i (x : {x : γ × β // Inv x.1 x.2}), ∃ a, (∀ l, f (x.1.1, x.1.2, l) i = .ok (nextC a, next a, l ++ [a])) ∧
      P i x.1.1 x.1.2 a ∧ Inv (nextC a) (next a) := fun i x => hf i x.1.1 x.1.2 x.2
  choose a h1 h2 h3 using hf'
  let st : ℕ → {x : γ × β // Inv x.1 x.2} := fun n => Nat.rec ⟨(c0, b0), h0⟩ (fun i x => ⟨(nextC (a i x), next (a i x)), h3 i x⟩) n
  refine ⟨fun i => a i (st i), fun i => (st i).1.2, fun i => (st i).1.1, rfl, rfl, fun i => ⟨rfl, rfl⟩, fun i => ⟨h2 i _, (st i).2⟩, ?_⟩
  intro n
  induction n with
  | zero => rfl
  | succ n ih =>
    rw [List.range_succ, List.foldlM_append, ih]
    simp only [bind, Except.bind, List.foldlM_cons, List.foldlM_nil, pure, Except.pure]
    rw [h1 n (st n)]
    simp
    exact ⟨rfl, rfl⟩

/-! ## Copying the factors -/

theorem copyMats_ok {order : ℕ} {D S : List (Tensor ℝ)} (hD : D.length = order) (hS : S.length = order) :
    copyMats order D S = .ok S := by
  unfold copyMats
  have key : ∀ n ≤ order, (List.range n).foldlM (fun D (j : ℕ) => do
      let s ← rd S j
      pure (D.set j s)) D = .ok (S.take n ++ D.drop n) := by
    intro n
    induction n with
    | zero => intro _; simp; rfl
    | succ n ih =>
      intro hn
      rw [List.range_succ, List.foldlM_append, ih (by omega)]
      have hr : rd S (n : ℤ) = .ok S[n] := by
        exact rd_ok (by omega)
      simp only [bind, Except.bind, List.foldlM_cons, List.foldlM_nil, hr, pure, Except.pure]
      congr 1
      apply List.ext_getElem?
      intro i
      rw [List.getElem?_set]
      split
      · next h =>
        subst h
        rw [if_pos (by simp; omega), List.getElem?_append_left (by simp; omega), List.getElem?_take_of_lt (by omega),
          List.getElem?_eq_getElem (by omega)]
      · next h =>
        by_cases hi : i < n
        · rw [List.getElem?_append_left (by simp; omega), List.getElem?_append_left (by simp; omega),
            List.getElem?_take_of_lt hi, List.getElem?_take_of_lt (by omega)]
        · rw [List.getElem?_append_right (by simp; omega), List.getElem?_append_right (by simp; omega), List.getElem?_drop,
            List.getElem?_drop]
          congr 1
          simp only [List.length_take]
          omega
  rw [key order le_rfl]
  rw [List.take_of_length_le (by omega), List.drop_of_length_le (by omega), List.append_nil]

/-! ## The PP drivers in `bench` mode -/

variable {σ : Type}

/-- Every PP phase in `bench` mode advances `iter`. -/
theorem ppSubLoop_bench_lt {c : PPCfg} {h : PPHooks σ} {clock : ℕ → ℝ} (hb : c.bench = true) (init : ℕ) :
    ∀ (fuel : ℕ) (r r' : PPRun σ), init ≤ r.iter → ppSubLoop c h clock init fuel r = .ok r' → init < r'.iter
  | 0, _, _, _, e => by cases e
  | fuel + 1, r, r', hi, e => by
    unfold ppSubLoop at e
    split at e
    · simp only [hb, if_true, bind, Except.bind, Bool.false_or] at e
      split at e
      · next h1 =>
        have e := Except.ok.inj e
        simp only [Bool.and_eq_true, bne_iff_ne] at h1
        rw [← e]
        have := h1.1.2
        omega
      · cases e1 : ppEnter h init r with
        | error x => rw [e1] at e; cases e
        | ok r1 =>
          rw [e1] at e
          simp only at e
          have hr1 : r1.iter = r.iter := by
            unfold ppEnter at e1
            split at e1
            · cases hp : h.ppBegin r.st with
              | error x => rw [hp] at e1; cases e1
              | ok s => rw [hp] at e1; rw [← Except.ok.inj e1]
            · rw [Except.ok.inj e1]
          cases e2 : ppTest c h clock true (ppChecked c init r.iter) r1 with
          | error x => rw [e2] at e; cases e
          | ok t =>
            rw [e2] at e
            simp only at e
            have ht : t.1.iter = r1.iter := by
              unfold ppTest at e2
              split at e2
              · cases e2
              · split at e2
                · simp only [bind, Except.bind] at e2
                  cases hc : h.check r1.st with
                  | error x => rw [hc] at e2; cases e2
                  | ok q =>
                    rw [hc] at e2
                    simp only at e2
                    split at e2
                    · rw [← Except.ok.inj e2]
                    · cases ha : h.accept q.1 with
                      | error x => rw [ha] at e2; cases e2
                      | ok s => rw [ha] at e2; rw [← Except.ok.inj e2]
                · rw [← Except.ok.inj e2]
            split at e
            · rw [← Except.ok.inj e, benchInc_iter]
              simp only [hb, if_true]
              omega
            · cases e3 : h.ppSweep t.1.st with
              | error x => rw [e3] at e; cases e
              | ok s =>
                rw [e3] at e
                exact ppSubLoop_bench_lt hb init fuel _ r' (by simp only; omega) e
    · rw [← Except.ok.inj e, benchInc_iter]
      simp only [hb, if_true]
      omega

/-- In `bench` mode the drivers terminate whatever the clock. -/
theorem ppDriverLoop_bench {c : PPCfg} {h : PPHooks σ} {clock : ℕ → ℝ} {I D Q : σ → Prop} (hk : HooksOk h I D Q)
    (hr : c.resprint ≠ 0) (hclose : ∀ s, D s → h.dtClose s = .ok true → h.ppFar s = .ok false) (hb : c.bench = true) {sub : ℕ} :
    ∀ (fuel : ℕ) (r : PPRun σ), I r.st → (c.maxiter + 1 - r.iter).toNat < sub → (c.maxiter + 1 - r.iter).toNat < fuel →
    ∃ r', ppDriverLoop c h clock sub fuel r = .ok r' ∧ I r'.st
  | 0, _, _, _, hf => by omega
  | fuel + 1, r, hI, hs, hf => by
    unfold ppDriverLoop
    split
    · next hgo =>
      obtain ⟨r1, r2, a1, a2, a3, a4, -⟩ := round_ok hk hr hclose hI hgo.2 hs (clock := clock)
      rw [if_pos hb] at a1
      cases a1
      simp only [bind, Except.bind, a2]
      have hlt := ppSubLoop_bench_lt hb r.iter sub r r2 le_rfl a2
      exact ppDriverLoop_bench hk hr hclose hb fuel { r2 with st := h.endRound r2.st } (hk.endRound _ a3) (by simp only; omega)
        (by simp only; omega)
    · exact ⟨r, rfl, hI⟩

/-- One pass of a CP PP phase in `bench` mode. -/
theorem ppSubLoop_step {c : PPCfg} {h : PPHooks σ} {clock : ℕ → ℝ} {init fuel : ℕ} {r r1 : PPRun σ} {g d : ℝ} (hb : c.bench = true)
    (ht : c.tucker = false) (hi : (r.iter : ℤ) ≤ c.maxiter) (h15 : r.iter = init ∨ (r.iter - init) % 15 ≠ 0) (hr : c.resprint ≠ 0)
    (hch : ppChecked c init r.iter) (he : ppEnter h init r = .ok r1) (hc : h.check r1.st = .ok (r1.st, g, d))
    (ha : h.accept r1.st = .ok r1.st) :
    ((g < c.tol ∨ c.timelimit < clock r1.tests) → ppSubLoop c h clock init (fuel + 1) r =
      .ok ⟨r1.iter + 1, g, r1.tests + 1, r1.st, r1.trace ++ [.row r1.iter g true d]⟩) ∧
    (¬ (g < c.tol ∨ c.timelimit < clock r1.tests) → ∀ s2, h.ppSweep r1.st = .ok s2 → ppSubLoop c h clock init (fuel + 1) r =
      ppSubLoop c h clock init fuel ⟨r1.iter + 1, g, r1.tests + 1, s2, r1.trace ++ [.row r1.iter g true d] ++ [.ppSweep]⟩) := by
  have hfar : (false || (c.tucker == false && r.iter != init && (r.iter - init) % 15 == 0)) = false := by
    rcases h15 with h | h
    · simp [h]
    · simp [h]
  constructor
  · intro hs
    conv_lhs => unfold ppSubLoop
    rw [if_pos hi]
    simp only [hb, if_true, bind, Except.bind, hfar, Bool.false_eq_true, if_false, he]
    unfold ppTest
    rw [if_neg hr, if_pos hch]
    simp only [bind, Except.bind, hc]
    rw [if_pos (by rcases hs with h | h; exact .inl h; exact .inr (.inl h))]
    simp only [pure, Except.pure, if_true, benchInc, hb]
  · intro hs s2 h2
    conv_lhs => unfold ppSubLoop
    rw [if_pos hi]
    simp only [hb, if_true, bind, Except.bind, hfar, Bool.false_eq_true, if_false, he]
    unfold ppTest
    rw [if_neg hr, if_pos hch]
    simp only [bind, Except.bind, hc]
    rw [if_neg (by rintro (h | h | h); exact hs (.inl h); exact hs (.inr h); rw [ht] at h; simp at h)]
    simp only [ha, pure, Except.pure, Bool.false_eq_true, if_false, h2]

end Model
