import Verif.Model.PPPart

/-! # The driver `alsCP_PP_partupdate` (als_CP.cxx:852-1073, 1146-1207) -/

namespace Model

/-- Data of `alsCP_PP_partupdate`: those of `alsCP_PP` and the arrays `dM`, `M`, `W_relative_perturbe` of the running PP phase. -/
structure PartPPState where
  cp : CPPPState
  dM : List (Tensor ℝ)
  M : List (Tensor ℝ)
  rel : List Rel

/-- The computations of `alsCP_PP_partupdate`; `p` is `update_percentage`.  The dimension tree phase is `alsCP_DT_sub` as in
`alsCP_PP`.  `dM`, `M`, `W_relative_perturbe` are local to `alsCP_PP_partupdate_sub` and initialised at its start
(als_CP.cxx:888-897); the model does it together with the operators in the first pass, before which they are not used. -/
noncomputable def partPPHooks (same : Bool) (N rank : ℕ) (lam ratio tolInit p : ℝ) (k : Kern ℝ) (srt : List Rel → List ℕ)
    (V : Tensor ℝ) : PPHooks PartPPState :=
  let h := cpPPHooks same N rank lam ratio tolInit k V
  { dtBegin := fun s => do
      let c ← h.dtBegin s.cp
      pure { s with cp := c }
    dtSweep := fun s => do
      let c ← h.dtSweep s.cp
      pure { s with cp := c }
    dtClose := fun s => h.dtClose s.cp
    ppFar := fun s => h.ppFar s.cp
    ppBegin := fun s => do
      let c ← h.ppBegin s.cp
      let q := partInit N c.W c.G c.dW
      pure ⟨c, q.dM, q.M, q.rel⟩
    ppSweep := fun s => do
      let t ← partSweep N rank lam ratio p k srt s.cp.ops s.cp.Winit ⟨s.cp.W, s.cp.G, s.cp.dW, s.dM, s.M, s.rel⟩
      pure ⟨{ s.cp with W := t.W, G := t.G, dW := t.dW }, t.dM, t.M, t.rel⟩
    check := fun s => do
      let q ← h.check s.cp
      pure ({ s with cp := q.1 }, q.2)
    accept := fun s => do
      let c ← h.accept s.cp
      pure { s with cp := c }
    endRound := fun s => { s with cp := h.endRound s.cp } }

/-- `alsCP_PP_partupdate` (als_CP.cxx:1146-1207) on factors `W` and gradients `G`. -/
noncomputable def alsCPPart (same : Bool) (N rank : ℕ) (lam ratio tolInit p : ℝ) (k : Kern ℝ) (srt : List Rel → List ℕ)
    (V : Tensor ℝ) (c : PPCfg) (clock : ℕ → ℝ) (fuel : ℕ) (W G : List (Tensor ℝ)) :
    Except Fault (PPRun PartPPState × Bool) :=
  ppDriver { c with tucker := false } (partPPHooks same N rank lam ratio tolInit p k srt V) clock fuel
    ⟨⟨W, G, W.map zerosLike, [], [], []⟩, [], [], []⟩

end Model
