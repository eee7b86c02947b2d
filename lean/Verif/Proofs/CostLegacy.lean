import Verif.Model.CostLegacy
import Verif.Proofs.CostRuns

/-! The recording copies of the legacy sweeps compute what the originals compute. -/

namespace Model

open Spec (Tag Work)

theorem dtNodeC_erases {τ : Type} {order : ℕ} {tree : LTree} {fr : Key → CM τ} {fr' : Key → Except Fault τ}
    {fp : Key → τ → CM τ} {fp' : Key → τ → Except Fault τ} (h1 : ∀ k, Erases (fr k) (fr' k))
    (h2 : ∀ k t, Erases (fp k t) (fp' k t)) :
    ∀ (fuel : ℕ) (args : Key) (cache : List (Key × τ)),
      Erases (dtNodeC order tree fr fp fuel args cache) (dtNode order tree fr' fp' fuel args cache)
  | 0, _, _ => Erases.err _
  | fuel + 1, args, cache => by
    rw [dtNodeC, dtNode]
    refine Erases.ite (Erases.pure _) (Erases.ite ((h1 _).bind fun _ => Erases.pure _) ?_)
    refine (Erases.ite (dtNodeC_erases h1 h2 fuel _ cache) (Erases.pure _)).bind fun c => ?_
    cases c.lookup (mapGet tree.parent args) with
    | none => exact Erases.err _
    | some Tp => exact (h2 _ _).bind fun _ => Erases.pure _

variable {K : Type} [CommRing K]

theorem sibLoopC_erases (tag : ℕ → Tag) (p sb : Key) (lens0 : List ℕ) (R start : ℕ)
    (wat : ℕ → Label → Except Fault (Tensor K)) (T0 : Tensor K) (seq0 : Key) :
    Erases (sibLoopC tag p sb lens0 R start wat T0 seq0) (sibLoop p sb lens0 R start wat T0 seq0) :=
  (Erases.foldlM (fun _ _ => (Erases.lift _).bind fun _ => (Erases.lift _).bind fun _ => (einsumC_erases _ _ _ _).bind fun _ =>
    Erases.pure _) _ _).bind fun _ => Erases.pure _

theorem cpFromRootC_erases (order : ℕ) (tree : LTree) (V : Tensor K) (W : List (Tensor K)) (args : Key) :
    Erases (cpFromRootC order tree V W args) (cpFromRoot order tree V W args) :=
  (Erases.lift _).bind fun _ => (Erases.lift _).bind fun _ => Erases.ite (Erases.err _) (sibLoopC_erases _ _ _ _ _ _ _ _ _)

theorem cpFromParentC_erases (tree : LTree) (W : List (Tensor K)) (args : Key) (Tp : Tensor K) :
    Erases (cpFromParentC tree W args Tp) (cpFromParent tree W args Tp) :=
  (Erases.lift _).bind fun _ => (Erases.lift _).bind fun _ => (Erases.lift _).bind fun _ =>
    Erases.ite (Erases.err _) (sibLoopC_erases _ _ _ _ _ _ _ _ _)

theorem legacyMC_erases (order : ℕ) (tree : LTree) (V : Tensor K) (W : List (Tensor K)) (cache : Cache K) (i : ℕ) :
    Erases (legacyMC order tree V W cache i) (legacyM order tree V W cache i) := by
  refine (Erases.ite (dtNodeC_erases (fun _ => cpFromRootC_erases _ _ _ _ _) (fun _ _ => cpFromParentC_erases _ _ _ _) _ _ _)
    (Erases.pure _)).bind fun c => ?_
  refine (Erases.lift _).bind fun _ => (Erases.lift _).bind fun _ => (Erases.lift _).bind fun _ => ?_
  beta_reduce
  cases c.lookup (mapGet tree.parent [letter i]) with
  | none => exact Erases.err _
  | some Tp =>
    refine Erases.ite ?_ ?_
    · exact (Erases.lift _).bind fun _ => (einsumC_erases _ _ _ _).bind fun _ => Erases.pure _
    · exact (Erases.lift _).bind fun _ => (Erases.lift _).bind fun _ => (Erases.lift _).bind fun _ =>
        (einsumC_erases _ _ _ _).bind fun _ => Erases.pure _

theorem legacyUpdateC_erases (order rank : ℕ) (lam : K) (solve : Spec.Solver K) (tree : LTree) (V : Tensor K)
    (F : List (Tensor K)) (s : Fac K × Cache K) (i : ℕ) :
    Erases (legacyUpdateC order rank lam solve tree V F s i) (legacyUpdate order rank lam solve tree V F s i) :=
  (legacyMC_erases _ _ _ _ _ _).bind fun _ => (gramSC_erases _ _ _ _).bind fun _ => (Erases.lift _).bind fun _ =>
    (Erases.lift _).bind fun _ => (modeTailC_erases _ _ _ _ _).bind fun _ => Erases.pure _

theorem legacyUpdatesC_erases (order rank : ℕ) (lam : K) (solve : Spec.Solver K) (V : Tensor K) (F : List (Tensor K))
    (f : Fac K) : Erases (legacyUpdatesC order rank lam solve V F f) (legacyUpdates order rank lam solve V F f) :=
  (Erases.foldlM (fun _ _ => legacyUpdateC_erases _ _ _ _ _ _ _ _ _) _ _).bind fun _ => Erases.pure _

theorem ttmcStepC_erases (order : ℕ) (W : List (Tensor K)) (i : ℤ) (s : Tensor K × Tensor K × List ℕ) (index : ℕ) :
    Erases (ttmcStepC order W i s index) (ttmcStep order W i s index) :=
  Erases.ite (Erases.pure _) ((Erases.lift _).bind fun _ => (einsumC_erases _ _ _ _).bind fun _ => Erases.pure _)

theorem ttmcC_erases (Y0 V : Tensor K) (W : List (Tensor K)) (i : ℤ) : Erases (ttmcC Y0 V W i) (ttmc Y0 V W i) :=
  (Erases.foldlM (fun _ _ => ttmcStepC_erases _ _ _ _ _) _ _).bind fun _ => Erases.pure _

theorem unrollC_erases (T : Tensor K) (i : ℕ) : Erases (unrollC T i) (unroll T i) :=
  (Erases.lift _).bind fun _ => (Erases.lift _).bind fun _ => einsumC_erases _ _ _ _

theorem ttmLoopC_erases (tag : ℕ → Tag) (order : ℕ) (W : List (Tensor K)) (sb : Key) (T0 : Tensor K) :
    Erases (ttmLoopC tag order W sb T0) (ttmLoop order W sb T0) :=
  (Erases.foldlM (fun _ _ => (Erases.lift _).bind fun _ => (Erases.lift _).bind fun _ => Erases.ite (Erases.err _)
    ((einsumC_erases _ _ _ _).bind fun _ => Erases.pure _)) _ _).bind fun _ => Erases.pure _

theorem tuckYC_erases (order : ℕ) (tree : LTree) (V : Tensor K) (W : List (Tensor K)) (cache : Cache K) (i : ℕ) :
    Erases (tuckYC order tree V W cache i) (tuckY order tree V W cache i) := by
  refine (Erases.lift _).bind fun _ => ?_
  refine (Erases.ite (dtNodeC_erases (fun _ => ttmLoopC_erases _ _ _ _ _) (fun _ _ => ttmLoopC_erases _ _ _ _ _) _ _ _)
    (Erases.pure _)).bind fun c => ?_
  refine (Erases.lift _).bind fun _ => (Erases.lift _).bind fun _ => ?_
  beta_reduce
  cases c.lookup (mapGet tree.parent [letter i]) with
  | none => exact Erases.err _
  | some Tp =>
    refine Erases.ite ?_ ?_
    · exact (Erases.lift _).bind fun _ => (einsumC_erases _ _ _ _).bind fun _ => Erases.pure _
    · exact (Erases.lift _).bind fun _ => (Erases.lift _).bind fun _ => (Erases.lift _).bind fun _ =>
        (einsumC_erases _ _ _ _).bind fun _ => Erases.pure _

theorem coreEndC_erases (order : ℕ) (clens : List ℕ) (Yend Wl : Tensor K) :
    Erases (coreEndC order clens Yend Wl) (coreEnd order clens Yend Wl) := einsumC_erases _ _ _ _

theorem factorOfC_erases (k : Kern ℝ) (Y : Tensor ℝ) (i r : ℕ) : Erases (factorOfC k Y i r) (factorOf k Y i r) :=
  (unrollC_erases _ _).bind fun _ => Erases.ite (Erases.pure _) (Erases.pure _)

theorem tuckSweepC_erases (k : Kern ℝ) (V : Tensor ℝ) (clens : List ℕ) (W : List (Tensor ℝ)) :
    Erases (tuckSweepC k V clens W) (tuckSweep k V clens W) :=
  Erases.foldlM (fun _ _ => (ttmcC_erases _ _ _ _).bind fun _ => (Erases.lift _).bind fun _ =>
    (factorOfC_erases _ _ _ _).bind fun _ => Erases.pure _) _ _

theorem tuckUpdateDTC_erases (order : ℕ) (tree : LTree) (k : Kern ℝ) (V : Tensor ℝ) (clens : List ℕ)
    (s : List (Tensor ℝ) × Cache ℝ × Tensor ℝ) (i : ℕ) :
    Erases (tuckUpdateDTC order tree k V clens s i) (tuckUpdateDT order tree k V clens s i) :=
  (tuckYC_erases _ _ _ _ _ _).bind fun _ => (Erases.lift _).bind fun _ => (factorOfC_erases _ _ _ _).bind fun _ =>
    Erases.pure _

theorem tuckSweepDTC_erases (k : Kern ℝ) (V : Tensor ℝ) (clens : List ℕ) (W : List (Tensor ℝ)) :
    Erases (tuckSweepDTC k V clens W) (tuckSweepDT k V clens W) :=
  (Erases.foldlM (fun _ _ => tuckUpdateDTC_erases _ _ _ _ _ _ _) _ _).bind fun _ => (Erases.lift _).bind fun _ =>
    (coreEndC_erases _ _ _ _).bind fun _ => Erases.pure _

end Model
