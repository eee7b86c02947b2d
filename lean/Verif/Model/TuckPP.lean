import Verif.Model.PPDriver
import Verif.Model.LegacyLoop

/-! # `alsTucker_PP` (als_Tucker.cxx:476-962): the computations of the driver -/

namespace Model

/-- Data of `alsTucker_PP` and of the running subroutine: `W`, `dW`, `W_prev`, `W_init`, `ttmc_map`, `core`, `core_prev`,
`tol_init`. -/
structure TuckPPState where
  W : List (Tensor ℝ)
  dW : List (Tensor ℝ)
  Wprev : List (Tensor ℝ)
  Winit : List (Tensor ℝ)
  ops : Cache ℝ
  core : Tensor ℝ
  corePrev : Tensor ℝ
  tolInit : ℝ

open Classical in
/-- The computations of `alsTucker_PP`.
`dtBegin`: als_Tucker.cxx:482-486; `dtSweep`: 566-651; `dtClose`: 648-657; `ppFar`: 724-734; `ppBegin`: 739-765; `ppSweep`: 826-887;
`check`: 518-546, 770-795; `accept`: 563, 823; `endRound`: 943-944. -/
noncomputable def tuckPPHooks (N : ℕ) (k : Kern ℝ) (V : Tensor ℝ) : PPHooks TuckPPState where
  dtBegin s := .ok { s with Wprev := s.W.map zerosLike }
  dtSweep s := do
    let r ← tuckSweepDTsub k V s.core.lens s.Wprev s.W
    let d ← diffs N r.1 s.Wprev
    pure { s with W := r.1, core := r.2, dW := d, Wprev := r.1 }
  dtClose s := do
    let l ← ratioTests N (fun a b => quotLt a b s.tolInit) s.W s.dW
    pure (l.all id)
  ppFar s := do
    let l ← ratioTests N (fun a b => quotGt a b s.tolInit) s.W s.dW
    pure (l.any id)
  ppBegin s := do
    let ops ← tuckOperators N V s.W
    pure { s with Winit := s.W, dW := s.W.map zerosLike, ops := ops }
  ppSweep s := do
    let r ← tuckPPSweep N k s.core.lens s.ops s.Winit s.W s.dW
    pure { s with W := r.1, dW := r.2.1, core := r.2.2 }
  check s := do
    let r ← tuckCheck V s.core s.corePrev s.W
    pure ({ s with core := r.1 }, r.2.1, r.2.2)
  accept s := do
    let t ← keepCore ⟨s.W, s.core, s.corePrev⟩
    pure { s with corePrev := t.corePrev }
  endRound s := if 5 / 1000 < s.tolInit then { s with tolInit := s.tolInit * (9 / 10) } else s

/-- `alsTucker_PP(V, core, W, tol, tol_init, timelimit, maxiter, Plot_File, resprint, bench, dw)` (als_Tucker.cxx:906-962). -/
noncomputable def alsTuckerPP (N : ℕ) (k : Kern ℝ) (V : Tensor ℝ) (tolInit : ℝ) (c : PPCfg) (clock : ℕ → ℝ) (fuel : ℕ)
    (core : Tensor ℝ) (W : List (Tensor ℝ)) : Except Fault (PPRun TuckPPState × Bool) :=
  ppDriver { c with tucker := true } (tuckPPHooks N k V) clock fuel
    ⟨W, W.map zerosLike, [], [], [], core, core, tolInit⟩

end Model
