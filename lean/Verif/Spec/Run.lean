import Verif.Spec.LowRank
import Mathlib.Algebra.Order.Field.Rat

/-! # Specification of the optimizers selected by `-pp` in run.cxx -/

namespace Spec

variable {K : Type*} {N : ℕ}

/-- Factors and recorded gradients after step number `t` (from 0) of the optimizer number `pp`, `tr` being the states so far
(`tr t` the current one).
* 0: all modes but the last, then the last one, alternately (dimension tree);
* 1: the next `N - 1` modes in cyclic order (multi-sweep dimension tree);
* 2: as 0 with moving split and low-rank corrections of the current factors (`dtlrOps`);
* 3: as 1 with low-rank corrections of the factors `N - 1` steps ago (`msdtlrOps`);
* otherwise: a whole sweep. -/
def ppStep [CommRing K] (pp : ℤ) (hN : 0 < N) (dims : Fin N → ℕ) (R : ℕ) (lam : K) (solve : Solver K) (q : ℕ) (lr : LowRank K)
    (V : (Fin N → ℕ) → K) (tr : ℕ → AlsState N K) (t : ℕ) : AlsState N K :=
  if pp = 0 then alsRun dims R lam solve V (if t % 2 = 0 then (List.finRange N).dropLast else [⟨N - 1, by omega⟩]) (tr t)
  else if pp = 1 then
    alsRun dims R lam solve V ((List.range (N - 1)).map fun p => ⟨(t * (N - 1) + p) % N, Nat.mod_lt _ hN⟩) (tr t)
  else if pp = 2 then lrRun dims R lam solve q lr V (fun st => st.W) (dtlrOps N t) (tr t)
  else if pp = 3 then lrRun dims R lam solve q lr V (fun _ => (tr (t + 1 - N)).W) (msdtlrOps N hN t) (tr t)
  else alsSweep dims R lam solve V (tr t)

/-- The number of sweeps one step counts for. -/
def ppSweeps (pp : ℤ) (N : ℕ) : ℚ :=
  if pp = 0 ∨ pp = 2 then 1 / 2 else if pp = 1 ∨ pp = 3 then ((N : ℚ) - 1) / N else 1

end Spec
