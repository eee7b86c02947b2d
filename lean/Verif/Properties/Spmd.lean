import Verif.Model.Spmd
import Verif.Properties.AlsLoop

/-! # C46: all MPI ranks take the same branch -/

namespace Properties

open Model

variable {σ : Type} {P N : ℕ}

/-- Rank `p`'s time test agrees with rank `q`'s in iteration `k`. -/
def SameTest (a : AlsArgs) (clock : Fin P → ℕ → ℝ) (q p : Fin P) (k : ℕ) : Prop :=
  a.timelimit < clock p k ↔ a.timelimit < clock q k

theorem meet_const (hP : 0 < P) (o : Option Coll) : meet P (fun _ => o) =
    match o with | none => .finished | some c => .coll c := by
  have hx : ∀ Q : Prop, (∀ _ : Fin P, Q) ↔ Q := fun Q => ⟨fun h => h ⟨0, hP⟩, fun h _ => h⟩
  unfold meet
  simp only [hx]
  cases o with
  | none => simp
  | some c => cases c <;> simp

theorem meet_split {next : Fin P → Option Coll} {p q : Fin P} (hp : next p = none) (hq : next q = some .step) :
    meet P next = .deadlock := by
  unfold meet
  rw [if_neg, if_neg, if_neg]
  · intro h; have := h p; rw [hp] at this; cases this
  · intro h; have := h p; rw [hp] at this; cases this
  · intro h; have := h q; rw [hq] at this; cases this

/-- One round from a state that is the same on all ranks. -/
theorem spmd_unif {a : AlsArgs} {step : σ → Except Fault σ} {inc : ℚ} {check : σ → Except Fault (ℝ × ℝ)}
    {clock : Fin P → ℕ → ℝ} (q : Fin P) (F : ℕ) (x : RankSt) (st : σ) (rows : List AlsRow) {o : Option Coll}
    (hx : rankNext a x = .ok o) : spmdRun q a step inc check clock (F + 1) (fun _ => x) st rows =
      (match o with
      | none => .ok (some (fun _ => x, st, rows))
      | some .check => do
        let c ← check st
        spmdRun q a step inc check clock F (fun p => rankAfterCheck a (clock p) c.1 x) st (rows ++ [⟨x.iters, x.sweeps, c.1, c.2⟩])
      | some .step => do
        let st ← step st
        spmdRun q a step inc check clock F (fun _ => rankAfterStep inc x) st rows) := by
  have h1 : ¬ ∃ _ : Fin P, rankNext a x = .error .ub := by
    rintro ⟨_, h⟩
    rw [hx] at h
    cases h
  rw [spmdRun, if_neg h1]
  simp only [hx]
  rw [meet_const q.pos]
  cases o with
  | none => rfl
  | some c => cases c <;> rfl

theorem spmd_split {a : AlsArgs} {step : σ → Except Fault σ} {inc : ℚ} {check : σ → Except Fault (ℝ × ℝ)}
    {clock : Fin P → ℕ → ℝ} (q : Fin P) (F : ℕ) (g : ℝ) (x : RankSt) (st : σ) (rows : List AlsRow) {p p' : Fin P}
    (hp : g < a.tol ∨ a.timelimit < clock p x.iters) (hp' : ¬ (g < a.tol ∨ a.timelimit < clock p' x.iters)) :
    spmdRun q a step inc check clock (F + 1) (fun p => rankAfterCheck a (clock p) g x) st rows = .ok none := by
  have h1 : ¬ ∃ p : Fin P, rankNext a (rankAfterCheck a (clock p) g x) = .error .ub := by
    rintro ⟨p, h⟩
    unfold rankAfterCheck at h
    split_ifs at h <;> simp [rankNext] at h
  rw [spmdRun, if_neg h1, meet_split (p := p) (q := p')]
  · simp only [rankAfterCheck, if_pos hp, rankNext]; rfl
  · simp only [rankAfterCheck, if_neg hp', rankNext]; rfl

theorem spmd_main {a : AlsArgs} {step : σ → Except Fault σ} {inc : ℚ} {check : σ → Except Fault (ℝ × ℝ)}
    {clock : Fin P → ℕ → ℝ} (q : Fin P) (fuel : ℕ) {it : ℕ} {sw : ℚ} {st : σ} {rows : List AlsRow} {r : AlsEnd σ}
    (hr : alsLoop a step inc check (clock q) fuel it sw st rows = .ok r) :
    ∃ new, r.rows = rows ++ new ∧ 
      ((∀ row ∈ new, a.tol ≤ row.gradnorm → ∀ p, SameTest a clock q p row.iter) → ∀ F, 2 * fuel + 1 ≤ F →
        ∃ ranks, spmdRun q a step inc check clock F (fun _ => ⟨it, sw, .top⟩) st rows = .ok (some (ranks, r.st, r.rows)) ∧
          ∀ p, (ranks p).iters = r.iters ∧ (ranks p).sweeps = r.sweeps) ∧
      ((∃ row ∈ new, a.tol ≤ row.gradnorm ∧ ∃ p, ¬ SameTest a clock q p row.iter) → ∀ F, 2 * fuel + 1 ≤ F →
        spmdRun q a step inc check clock F (fun _ => ⟨it, sw, .top⟩) st rows = .ok none) := by
  induction fuel generalizing it sw st rows with
  | zero => cases hr
  | succ n ih =>
    unfold alsLoop at hr
    by_cases hs : ⌊sw⌋ ≤ a.maxsweep
    · rw [if_pos hs] at hr
      by_cases h0 : a.resprint = 0
      · rw [if_pos h0] at hr; cases hr
      rw [if_neg h0] at hr
      by_cases hc : alsChecked a it sw
      · rw [if_pos hc] at hr
        have nx : rankNext a ⟨it, sw, .top⟩ = .ok (some .check) := by simp [rankNext, hs, h0, hc]
        cases ec : check st with
        | error e => simp [ec, bind, Except.bind] at hr
        | ok c =>
          simp only [ec, bind, Except.bind] at hr
          have go : ∀ F, spmdRun q a step inc check clock (F + 1) (fun _ => ⟨it, sw, .top⟩) st rows =
              spmdRun q a step inc check clock F (fun p => rankAfterCheck a (clock p) c.1 ⟨it, sw, .top⟩) st
                (rows ++ [⟨it, sw, c.1, c.2⟩]) := by
            intro F
            rw [spmd_unif q F _ st rows nx]
            simp only [ec, bind, Except.bind]
          by_cases hstop : c.1 < a.tol ∨ a.timelimit < clock q it
          · rw [if_pos hstop] at hr
            simp only [pure, Except.pure, Except.ok.injEq] at hr
            subst hr
            refine ⟨[⟨it, sw, c.1, c.2⟩], rfl, ?_, ?_⟩
            · intro hag F hF
              obtain ⟨F, rfl⟩ : ∃ F', F = F' + 2 := ⟨F - 2, by omega⟩
              have hall : ∀ p, c.1 < a.tol ∨ a.timelimit < clock p it := by
                intro p
                rcases hstop with h | h
                · exact Or.inl h
                · by_cases ht : c.1 < a.tol
                  · exact Or.inl ht
                  · exact Or.inr ((hag ⟨it, sw, c.1, c.2⟩ (by simp) (not_lt.mp ht) p).mpr h)
              have e2 : (fun p : Fin P => rankAfterCheck a (clock p) c.1 ⟨it, sw, .top⟩) =
                  fun _ => (⟨it, sw, .left true⟩ : RankSt) := by
                funext p; simp only [rankAfterCheck]; rw [if_pos (hall p)]
              rw [go, e2, spmd_unif q F _ st _ (o := none) rfl]
              exact ⟨_, rfl, fun p => ⟨rfl, rfl⟩⟩
            · rintro ⟨row, hrow, hg, p, hp⟩ F hF
              obtain ⟨F, rfl⟩ : ∃ F', F = F' + 2 := ⟨F - 2, by omega⟩
              simp only [List.mem_singleton] at hrow
              subst hrow
              simp only at hg hp
              have hq : a.timelimit < clock q it := by
                rcases hstop with h | h
                · linarith
                · exact h
              have hpn : ¬ a.timelimit < clock p it := fun h => hp ⟨fun _ => hq, fun _ => h⟩
              rw [go]
              exact spmd_split q F c.1 _ st _ (p := q) (p' := p) (Or.inr hq) (by simp [hpn, hg])
          · rw [if_neg hstop] at hr
            push Not at hstop
            cases es : step st with
            | error e => simp [es] at hr
            | ok st' =>
              simp only [es] at hr
              obtain ⟨new, e1, h1, h2⟩ := ih hr
              have go2 : ∀ F, (∀ p, ¬ (c.1 < a.tol ∨ a.timelimit < clock p it)) →
                  spmdRun q a step inc check clock (F + 2) (fun _ => ⟨it, sw, .top⟩) st rows =
                  spmdRun q a step inc check clock F (fun _ => ⟨it + 1, sw + inc, .top⟩) st' (rows ++ [⟨it, sw, c.1, c.2⟩]) := by
                intro F hall
                have e2 : (fun p : Fin P => rankAfterCheck a (clock p) c.1 ⟨it, sw, .top⟩) =
                    fun _ => (⟨it, sw, .stepping⟩ : RankSt) := by
                  funext p; simp only [rankAfterCheck]; rw [if_neg (hall p)]
                rw [go, e2, spmd_unif q F _ st _ (o := some .step) rfl]
                simp only [es, bind, Except.bind, rankAfterStep]
              refine ⟨⟨it, sw, c.1, c.2⟩ :: new, by rw [e1]; simp, ?_, ?_⟩
              · intro hag F hF
                obtain ⟨F, rfl⟩ : ∃ F', F = F' + 2 := ⟨F - 2, by omega⟩
                rw [go2]
                · exact h1 (fun row hrow => hag row (by simp [hrow])) F (by omega)
                · intro p
                  rintro (h | h)
                  · linarith [hstop.1]
                  · exact absurd ((hag ⟨it, sw, c.1, c.2⟩ (by simp) hstop.1 p).mp h) (not_lt.mpr hstop.2)
              · rintro ⟨row, hrow, hg, p, hp⟩ F hF
                obtain ⟨F, rfl⟩ : ∃ F', F = F' + 2 := ⟨F - 2, by omega⟩
                by_cases hhere : ∀ p, SameTest a clock q p it
                · rw [go2]
                  · refine h2 ⟨row, ?_, hg, p, hp⟩ F (by omega)
                    rcases List.mem_cons.mp hrow with rfl | h
                    · exact absurd (hhere p) hp
                    · exact h
                  · intro p
                    rintro (h | h)
                    · linarith [hstop.1]
                    · exact absurd ((hhere p).mp h) (not_lt.mpr hstop.2)
                · push Not at hhere
                  obtain ⟨p', hp'⟩ := hhere
                  have hpt : a.timelimit < clock p' it := by
                    by_contra hc'
                    exact hp' ⟨fun h => absurd h hc', fun h => absurd h (not_lt.mpr hstop.2)⟩
                  rw [go]
                  exact spmd_split q F c.1 _ st _ (p := p') (p' := q) (Or.inr hpt) (by simp [hstop.1, hstop.2])
      · rw [if_neg hc] at hr
        cases es : step st with
        | error e => simp [es, bind, Except.bind] at hr
        | ok st' =>
          simp only [es, bind, Except.bind] at hr
          obtain ⟨new, e1, h1, h2⟩ := ih hr
          have nx : rankNext a ⟨it, sw, .top⟩ = .ok (some .step) := by simp [rankNext, hs, h0, hc]
          have go2 : ∀ F, spmdRun q a step inc check clock (F + 1) (fun _ => ⟨it, sw, .top⟩) st rows =
              spmdRun q a step inc check clock F (fun _ => ⟨it + 1, sw + inc, .top⟩) st' rows := by
            intro F
            rw [spmd_unif q F _ st _ nx]
            simp only [es, bind, Except.bind, rankAfterStep]
          refine ⟨new, e1, ?_, ?_⟩
          · intro hag F hF
            obtain ⟨F, rfl⟩ : ∃ F', F = F' + 1 := ⟨F - 1, by omega⟩
            rw [go2]
            exact h1 hag F (by omega)
          · intro hex F hF
            obtain ⟨F, rfl⟩ : ∃ F', F = F' + 1 := ⟨F - 1, by omega⟩
            rw [go2]
            exact h2 hex F (by omega)
    · rw [if_neg hs] at hr
      simp only [Except.ok.injEq] at hr
      subst hr
      refine ⟨[], by simp, ?_, by simp⟩
      intro _ F hF
      obtain ⟨F, rfl⟩ : ∃ F', F = F' + 1 := ⟨F - 1, by omega⟩
      have nx : rankNext a ⟨it, sw, .top⟩ = .ok none := by simp [rankNext, hs]
      rw [spmd_unif q F _ st _ nx]
      exact ⟨_, rfl, fun p => ⟨rfl, rfl⟩⟩

/-- **C46**. On any number of ranks, with arbitrary local clocks: let `r` be the result of the single-rank program with the clock
of rank `q`. If at every logged iteration whose gradient norm is not below the tolerance all ranks' time tests agree with
that of `q`, then all ranks finish, with the counters, factors and log of `r`. -/
theorem C46_agree {kind : OptKind} {R : ℕ} {lam : ℝ} {solve : Spec.Solver ℝ} {rk : ℕ} {lr : Spec.LowRank ℝ} {V : Tensor ℝ}
    {a : AlsArgs} {clock : Fin P → ℕ → ℝ} (q : Fin P) {fuel : ℕ} {s : OptState ℝ × Fac ℝ} {r : AlsEnd (OptState ℝ × Fac ℝ)}
    (hr : cpdAls kind N R lam solve rk lr V a (clock q) fuel s = .ok r)
    (hag : ∀ row ∈ r.rows, a.tol ≤ row.gradnorm → ∀ p, SameTest a clock q p row.iter) {F : ℕ} (hF : 2 * fuel + 1 ≤ F) :
    ∃ ranks, cpdAlsSpmd q kind N R lam solve rk lr V a clock F s = .ok (some (ranks, r.st, r.rows)) ∧
      ∀ p, (ranks p).iters = r.iters ∧ (ranks p).sweeps = r.sweeps := by
  obtain ⟨new, e, h1, -⟩ := spmd_main q fuel hr
  rw [List.nil_append] at e
  exact h1 (by rw [← e]; exact hag) F hF

/-- **C46**, violated part. If at one of these iterations some rank's time test differs from that of rank `q`, the ranks
deadlock: one leaves the loop while another waits in a collective operation. Together with `C46_agree` this is an exact
criterion. -/
theorem C46_disagree {kind : OptKind} {R : ℕ} {lam : ℝ} {solve : Spec.Solver ℝ} {rk : ℕ} {lr : Spec.LowRank ℝ} {V : Tensor ℝ}
    {a : AlsArgs} {clock : Fin P → ℕ → ℝ} (q : Fin P) {fuel : ℕ} {s : OptState ℝ × Fac ℝ} {r : AlsEnd (OptState ℝ × Fac ℝ)}
    (hr : cpdAls kind N R lam solve rk lr V a (clock q) fuel s = .ok r) {row : AlsRow} (hrow : row ∈ r.rows)
    (hg : a.tol ≤ row.gradnorm) {p : Fin P} (hp : ¬ SameTest a clock q p row.iter) {F : ℕ} (hF : 2 * fuel + 1 ≤ F) :
    cpdAlsSpmd q kind N R lam solve rk lr V a clock F s = .ok none := by
  obtain ⟨new, e, -, h2⟩ := spmd_main q fuel hr
  rw [List.nil_append] at e
  exact h2 ⟨row, by rw [← e]; exact hrow, hg, p, hp⟩ F hF

/-- **C46**. In particular a deadlock is possible for every optimizer and every problem on two or more ranks: if the first
check does not meet the tolerance, it suffices that one rank's clock is past the limit at that check and another's is not. -/
theorem C46_deadlock_first {kind : OptKind} {dims : Fin N → ℕ} (hfit : OptFits kind dims) {R : ℕ} {V : Tensor ℝ}
    {f : Fac ℝ} (hS : Shaped dims R V f.W) (hG : f.G.length = N) (lam : ℝ) (solve : Spec.Solver ℝ) (rk : ℕ)
    (lr : Spec.LowRank ℝ) {a : AlsArgs} (hres : a.resprint ≠ 0) (hm : 0 ≤ a.maxsweep) {o0 : OptState ℝ}
    (h0 : optInit ℝ N kind = .ok o0) {g : ℝ} (hg : gradnorm f.G N = .ok g) (htol : a.tol ≤ g)
    {clock : Fin P → ℕ → ℝ} {p q : Fin P} (hp : a.timelimit < clock p 0) (hq : clock q 0 ≤ a.timelimit) :
    ∃ F, ∀ F' ≥ F, cpdAlsSpmd q kind N R lam solve rk lr V a clock F' (o0, f) = .ok none := by
  obtain ⟨o0', s, r, e1, e2, e3, e4, -, e5⟩ := C49_log_rows hfit hS hG lam solve rk lr (a := a) hres (clock q) 0
    (Nat.lt_succ_self _)
  rw [h0] at e1
  cases e1
  simp only [iterM, Except.ok.injEq] at e2
  subst e2
  obtain ⟨row, hrow, hi⟩ := (e4 0).mpr ⟨by omega, by simpa using hm, Or.inr (Or.inl rfl)⟩
  obtain ⟨-, s', f1, f2, -⟩ := e5 row hrow
  rw [hi] at f1
  simp only [iterM, Except.ok.injEq] at f1
  subst f1
  rw [hg] at f2
  refine ⟨2 * (stepLimit N a.maxsweep kind + 1) + 1, fun F' hF' => ?_⟩
  refine C46_disagree q e3 hrow ?_ (p := p) ?_ hF'
  · rw [← Except.ok.inj f2]; exact htol
  · rw [hi]
    exact fun h => absurd (h.mp hp) (not_lt.mpr hq)

/-! Non-vacuity. -/

example := C18_als_terminates exFits exShapedR rfl 3 (fun _ _ M _ => M) 1 exLRR (a := exArgs) (by simp [exArgs])
  ((fun (p : Fin 2) (k : ℕ) => (k : ℝ) + 100 * p.val) 0) 0 (Nat.lt_succ_self _)

example (k : ℕ) (hk : k < 60) : ¬ SameTest exArgs (fun (p : Fin 2) (k : ℕ) => (k : ℝ) + 100 * p.val) 0 1 k := by
  have h60 : (k : ℝ) < 60 := by exact_mod_cast hk
  have h0 : (0 : ℝ) ≤ k := Nat.cast_nonneg k
  unfold SameTest exArgs
  intro h
  have h1 := h.mp (by simp; linarith)
  simp at h1
  linarith [(by exact_mod_cast h1 : (60 : ℝ) < k)]

end Properties
