import Verif.Model.Ieee
import Verif.Model.Bench
import Verif.Model.RunMain

/-! For finite values the loops with IEEE comparisons are the loops over the reals. -/

namespace Model

variable {σ : Type}

theorem mixCmp_fin (tol timelimit : ℝ) (clock : ℕ → ℝ) :
    mixCmp (.fin tol) (.fin timelimit) clock = realCmp tol timelimit clock := rfl

theorem alsLoopC_real (a : AlsArgs) (step : σ → Except Fault σ) (inc : ℚ) (check : σ → Except Fault (ℝ × ℝ)) (clock : ℕ → ℝ) :
    ∀ fuel iters sweeps st rows, alsLoopC (realCmp a.tol a.timelimit clock) a.maxsweep a.resprint step inc check fuel iters sweeps st rows =
      alsLoop a step inc check clock fuel iters sweeps st rows := by
  intro fuel
  induction fuel with
  | zero => intros; rfl
  | succ fuel ih =>
    intro iters sweeps st rows
    unfold alsLoopC alsLoop
    simp only [ih]
    simp only [realCmp, alsChecked]
    congr

theorem llLoopC_real (a : LLArgs) (h : LLHooks σ) (clock : ℕ → ℝ) :
    ∀ fuel iter st rows, llLoopC (realCmp a.tol a.timelimit clock) a.maxiter a.resprint h fuel iter st rows =
      llLoop a h clock fuel iter st rows := by
  intro fuel
  induction fuel with
  | zero => intros; rfl
  | succ fuel ih =>
    intro iter st rows
    unfold llLoopC llLoop
    simp only [ih]
    rfl

/-- The control arguments of a configuration. -/
def PPCfg.ctl (c : PPCfg) : PPCtl := ⟨c.tucker, c.maxiter, c.resprint, c.bench⟩

theorem ppTestC_real (c : PPCfg) (h : PPHooks σ) (clock : ℕ → ℝ) (pp : Bool) (checked : Prop) (r : PPRun σ) :
    ppTestC (realCmp c.tol c.timelimit clock) c.ctl h pp checked r = ppTest c h clock pp checked r := rfl

theorem dtSubLoopC_real (c : PPCfg) (h : PPHooks σ) (clock : ℕ → ℝ) :
    ∀ fuel r, dtSubLoopC (realCmp c.tol c.timelimit clock) c.ctl h fuel r = dtSubLoop c h clock fuel r := by
  intro fuel
  induction fuel with
  | zero => intros; rfl
  | succ fuel ih =>
    intro r
    unfold dtSubLoopC dtSubLoop
    simp only [ih, ppTestC_real]
    rfl

theorem ppSubLoopC_real (c : PPCfg) (h : PPHooks σ) (clock : ℕ → ℝ) (init : ℕ) :
    ∀ fuel r, ppSubLoopC (realCmp c.tol c.timelimit clock) c.ctl h init fuel r = ppSubLoop c h clock init fuel r := by
  intro fuel
  induction fuel with
  | zero => intros; rfl
  | succ fuel ih =>
    intro r
    unfold ppSubLoopC ppSubLoop
    simp only [ih, ppTestC_real]
    rfl

theorem ppDriverLoopC_real (c : PPCfg) (h : PPHooks σ) (clock : ℕ → ℝ) (sub : ℕ) :
    ∀ fuel r, ppDriverLoopC (realCmp c.tol c.timelimit clock) c.ctl h sub fuel r = ppDriverLoop c h clock sub fuel r := by
  intro fuel
  induction fuel with
  | zero => intros; rfl
  | succ fuel ih =>
    intro r
    unfold ppDriverLoopC ppDriverLoop dtSubC dtSub
    simp only [ih, dtSubLoopC_real, ppSubLoopC_real]
    rfl

theorem ppDriverC_real (c : PPCfg) (h : PPHooks σ) (clock : ℕ → ℝ) (fuel : ℕ) (st : σ) :
    ppDriverC (realCmp c.tol c.timelimit clock) 10 c.ctl h fuel st = ppDriver c h clock fuel st := by
  unfold ppDriverC ppDriver
  rw [ppDriverLoopC_real]
  rfl

/-! ## The drivers -/

variable (tol tl : ℝ) (mi rp : ℤ) (tk b : Bool) (clock : ℕ → ℝ) (fuel : ℕ)

theorem cpdAlsC_real (kind : OptKind) (order rank : ℕ) (lam : ℝ) (solve : Spec.Solver ℝ) (q : ℕ) (lr : Spec.LowRank ℝ)
    (V : Tensor ℝ) (s : OptState ℝ × Fac ℝ) :
    cpdAlsC kind order rank lam solve q lr V (realCmp tol tl clock) mi rp fuel s =
      cpdAls kind order rank lam solve q lr V ⟨tol, tl, mi, rp⟩ clock fuel s :=
  alsLoopC_real ⟨tol, tl, mi, rp⟩ _ _ _ clock fuel 0 0 s []

theorem alsCPDTC_real (order rank : ℕ) (lam : ℝ) (solve : Spec.Solver ℝ) (V : Tensor ℝ) (F : List (Tensor ℝ)) (f : Fac ℝ) :
    alsCPDTC order rank lam solve V F (realCmp tol tl clock) mi rp fuel f =
      alsCPDT order rank lam solve V F ⟨tol, tl, mi, rp⟩ clock fuel f :=
  llLoopC_real ⟨tol, tl, mi, rp⟩ _ clock fuel 0 f []

theorem alsTuckerDTC_real (k : Kern ℝ) (V : Tensor ℝ) (core : Tensor ℝ) (W : List (Tensor ℝ)) :
    alsTuckerDTC k V (realCmp tol tl clock) mi rp fuel core W = alsTuckerDT k V ⟨tol, tl, mi, rp⟩ clock fuel core W :=
  llLoopC_real ⟨tol, tl, mi, rp⟩ _ clock fuel 0 _ []

theorem alsCPPPC_real (same : Bool) (N rank : ℕ) (lam ratio tolInit : ℝ) (k : Kern ℝ) (V : Tensor ℝ) (W G : List (Tensor ℝ)) :
    alsCPPPC same N rank lam ratio tolInit k V (realCmp tol tl clock) ⟨tk, mi, rp, b⟩ fuel W G =
      alsCPPP same N rank lam ratio tolInit k V ⟨tk, tol, tl, mi, rp, b⟩ clock fuel W G :=
  ppDriverC_real ⟨false, tol, tl, mi, rp, b⟩ _ clock fuel _

theorem alsCPPartC_real (same : Bool) (N rank : ℕ) (lam ratio tolInit p : ℝ) (k : Kern ℝ) (srt : List Rel → List ℕ)
    (V : Tensor ℝ) (W G : List (Tensor ℝ)) :
    alsCPPartC same N rank lam ratio tolInit p k srt V (realCmp tol tl clock) ⟨tk, mi, rp, b⟩ fuel W G =
      alsCPPart same N rank lam ratio tolInit p k srt V ⟨tk, tol, tl, mi, rp, b⟩ clock fuel W G :=
  ppDriverC_real ⟨false, tol, tl, mi, rp, b⟩ _ clock fuel _

theorem alsTuckerPPC_real (N : ℕ) (k : Kern ℝ) (V : Tensor ℝ) (tolInit : ℝ) (core : Tensor ℝ) (W : List (Tensor ℝ)) :
    alsTuckerPPC N k V tolInit (realCmp tol tl clock) ⟨tk, mi, rp, b⟩ fuel core W =
      alsTuckerPP N k V tolInit ⟨tk, tol, tl, mi, rp, b⟩ clock fuel core W :=
  ppDriverC_real ⟨true, tol, tl, mi, rp, b⟩ _ clock fuel _

/-! ## `main` with finite `tol` and `timelimit` -/

theorem mixCmp_finite {x t : F64} (hx : x.Finite) (ht : t.Finite) (y : ℝ) (clock : ℕ → ℝ) :
    mixCmp (x.mul y) t clock = realCmp (x.toReal * y) t.toReal clock := by
  obtain ⟨a, rfl⟩ := hx
  obtain ⟨b, rfl⟩ := ht
  rfl

/-- `mainDrive` with finite `tol` and `timelimit`. -/
noncomputable def mainDriveR (E : MainEnv) (fuel : ℕ) (o : Opts) (V : Tensor ℝ) : Except Fault MainOut :=
  let N := V.lens.length
  let R := o.R.toNat
  let W := fillMats V.lens R E.w0
  let G := fillMats V.lens R E.g0
  let F := fillMats V.lens R fun _ _ _ => 0
  let tol := o.tol.toReal * norm2 V
  let a : LLArgs := ⟨tol, o.timelimit.toReal, o.maxiter, o.resprint⟩
  let c : PPCfg := ⟨false, tol, o.timelimit.toReal, o.maxiter, o.resprint, false⟩
  if o.model[0]? = some 'C' then
    if o.pp = 0 then do
      let r ← alsCPDT N R o.lambda.toReal E.solve V F a E.clock fuel ⟨W, G⟩
      pure (.cpDT r)
    else if o.pp = 1 then do
      let r ← alsCPPP E.same N R o.lambda.toReal o.magni.toReal o.ppResTol.toReal E.kern V c E.clock fuel W G
      pure (.cpPP r.1 r.2)
    else if o.pp = 2 then do
      let r ← alsCPPart E.same N R o.lambda.toReal o.magni.toReal o.ppResTol.toReal o.updatePct.toReal E.kern E.srt V c E.clock
        fuel W G
      pure (.cpPart r.1 r.2)
    else .ok .nothing
  else if o.model[0]? = some 'T' then do
    let h ← hosvd E.kern V (mainRanks o N)
    if o.pp = 0 then do
      let r ← alsTuckerDT E.kern V a E.clock fuel h.1 h.2
      pure (.tuckDT r)
    else if o.pp = 1 then do
      let r ← alsTuckerPP N E.kern V o.ppResTol.toReal c E.clock fuel h.1 h.2
      pure (.tuckPP r.1 r.2)
    else pure .nothing
  else .ok .nothing

theorem mainDrive_fin {o : Opts} (hx : o.tol.Finite) (ht : o.timelimit.Finite) (E : MainEnv) (fuel : ℕ) (V : Tensor ℝ) :
    mainDrive E fuel o V = mainDriveR E fuel o V := by
  unfold mainDrive mainDriveR
  simp only [mixCmp_finite hx ht, alsCPDTC_real, alsCPPPC_real, alsCPPartC_real, alsTuckerDTC_real, alsTuckerPPC_real]

/-- With finite `tol` and `timelimit`. -/
noncomputable def benchCPDTR (N R : ℕ) (lam : ℝ) (solve : Spec.Solver ℝ) (V : Tensor ℝ) (F : List (Tensor ℝ)) (a : LLArgs)
    (clk : ℕ → ℕ → ℝ) (fuel : ℕ) (W : List (Tensor ℝ)) (n : ℕ) (s : List (Tensor ℝ) × List (Tensor ℝ) × List (LLEnd (Fac ℝ))) :
    Except Fault (List (Tensor ℝ) × List (Tensor ℝ) × List (LLEnd (Fac ℝ))) :=
  (List.range n).foldlM (fun s (i : ℕ) => do
    let r ← alsCPDT N R lam solve V F a (clk i) fuel ⟨s.1, s.2.1⟩
    let D ← copyMats N r.st.W W
    pure (D, r.st.G, s.2.2 ++ [r])) s

/-- With finite `tol` and `timelimit`. -/
noncomputable def benchCPPPR (same : Bool) (N R : ℕ) (lam ratio tolInit : ℝ) (k : Kern ℝ) (V : Tensor ℝ) (c : PPCfg)
    (clk : ℕ → ℕ → ℝ) (fuel : ℕ) (W : List (Tensor ℝ)) (n : ℕ)
    (s : List (Tensor ℝ) × List (Tensor ℝ) × List (PPRun CPPPState × Bool)) :
    Except Fault (List (Tensor ℝ) × List (Tensor ℝ) × List (PPRun CPPPState × Bool)) :=
  (List.range n).foldlM (fun s (i : ℕ) => do
    let r ← alsCPPP same N R lam ratio tolInit k V c (clk i) fuel s.1 s.2.1
    let D ← copyMats N r.1.st.W W
    pure (D, r.1.st.G, s.2.2 ++ [r])) s

/-- With finite `tol` and `timelimit`. -/
noncomputable def benchTuckDTR (N : ℕ) (k : Kern ℝ) (V : Tensor ℝ) (a : LLArgs) (clk : ℕ → ℕ → ℝ) (fuel : ℕ) (W : List (Tensor ℝ))
    (n : ℕ) (s : List (Tensor ℝ) × Tensor ℝ × List (LLEnd TuckState)) :
    Except Fault (List (Tensor ℝ) × Tensor ℝ × List (LLEnd TuckState)) :=
  (List.range n).foldlM (fun s (i : ℕ) => do
    let D ← copyMats N s.1 W
    let r ← alsTuckerDT k V a (clk i) fuel s.2.1 D
    pure (r.st.W, r.st.core, s.2.2 ++ [r])) s

/-- With finite `tol` and `timelimit`. -/
noncomputable def benchTuckPPR (N : ℕ) (k : Kern ℝ) (V : Tensor ℝ) (tolInit : ℝ) (c : PPCfg) (clk : ℕ → ℕ → ℝ) (fuel : ℕ)
    (W : List (Tensor ℝ)) (n : ℕ) (s : List (Tensor ℝ) × Tensor ℝ × List (PPRun TuckPPState × Bool)) :
    Except Fault (List (Tensor ℝ) × Tensor ℝ × List (PPRun TuckPPState × Bool)) :=
  (List.range n).foldlM (fun s (i : ℕ) => do
    let D ← copyMats N s.1 W
    let r ← alsTuckerPP N k V tolInit c (clk i) fuel s.2.1 D
    pure (r.1.st.W, r.1.st.core, s.2.2 ++ [r])) s

/-- `benchDrive` with finite `tol` and `timelimit`. -/
noncomputable def benchDriveR (E : MainEnv) (clkD clkP : ℕ → ℕ → ℝ) (fuel : ℕ) (o : Opts) (V : Tensor ℝ) : Except Fault BenchOut :=
  let N := V.lens.length
  let R := o.R.toNat
  let W := fillMats V.lens R E.w0
  let G := fillMats V.lens R E.g0
  let F := fillMats V.lens R fun _ _ _ => 0
  let tol := o.tol.toReal * norm2 V
  let a : LLArgs := ⟨tol, o.timelimit.toReal, 1, o.resprint⟩
  let c : PPCfg := ⟨false, tol, o.timelimit.toReal, 1, o.resprint, true⟩
  let n := o.maxiter.toNat
  if o.model[0]? = some 'C' then do
    let d ← benchCPDTR N R o.lambda.toReal E.solve V F a clkD fuel W n (W, G, [])
    let p ← benchCPPPR E.same N R o.lambda.toReal o.magni.toReal o.ppResTol.toReal E.kern V c clkP fuel W n (W, d.2.1, [])
    pure (.cp d.2.2 p.2.2)
  else if o.model[0]? = some 'T' then do
    let core ← benchCore o.dim.toNat N R
    let d ← benchTuckDTR N E.kern V a clkD fuel W n (W, core, [])
    let p ← benchTuckPPR N E.kern V o.ppResTol.toReal c clkP fuel W n (W, d.2.1, [])
    pure (.tucker d.2.2 p.2.2)
  else .ok .nothing


theorem benchDrive_fin {o : Opts} (hx : o.tol.Finite) (ht : o.timelimit.Finite) (E : MainEnv) (clkD clkP : ℕ → ℕ → ℝ) (fuel : ℕ)
    (V : Tensor ℝ) : benchDrive E clkD clkP fuel o V = benchDriveR E clkD clkP fuel o V := by
  unfold benchDrive benchDriveR benchCPDT benchCPPP benchTuckDT benchTuckPP benchCPDTR benchCPPPR benchTuckDTR benchTuckPPR
  simp only [mixCmp_finite hx ht, alsCPDTC_real, alsCPPPC_real, alsTuckerDTC_real, alsTuckerPPC_real]

end Model
