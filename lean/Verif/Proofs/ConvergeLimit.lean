import Verif.Proofs.Converge
import Mathlib.Topology.Algebra.Monoid
import Mathlib.Topology.Order.MonotoneConvergence
import Mathlib.Topology.Instances.Real.Lemmas
import Mathlib.Topology.Sequences
import Mathlib.Topology.Bases
import Mathlib.Topology.Compactness.Compact
import Mathlib.Analysis.Normed.Group.Real

/-! # Limit points of ALS are stationary points -/

namespace Spec

open Finset Filter Topology

variable {N : ℕ} {dims : Fin N → ℕ} {R : ℕ} {V : (Fin N → ℕ) → ℝ} {lam : ℝ}

/-- Entrywise convergence of factors, on the entries that exist. -/
def FacTendsto (dims : Fin N → ℕ) (R : ℕ) (u : ℕ → Fin N → ℕ → ℕ → ℝ) (W : Fin N → ℕ → ℕ → ℝ) : Prop :=
  ∀ j, ∀ x < dims j, ∀ r < R, Tendsto (fun n => u n j x r) atTop (𝓝 (W j x r))

theorem gramExcept_tendsto {u : ℕ → Fin N → ℕ → ℕ → ℝ} {W : Fin N → ℕ → ℕ → ℝ} (h : FacTendsto dims R u W) (i : Fin N)
    {a b : ℕ} (ha : a < R) (hb : b < R) :
    Tendsto (fun n => gramExcept dims (u n) i a b) atTop (𝓝 (gramExcept dims W i a b)) := by
  unfold gramExcept gram
  refine tendsto_finsetProd _ fun j _ => tendsto_finsetSum _ fun x hx => ?_
  exact (h j x (mem_range.1 hx) a ha).mul (h j x (mem_range.1 hx) b hb)

theorem alsGrad_tendsto {u : ℕ → Fin N → ℕ → ℕ → ℝ} {W : Fin N → ℕ → ℕ → ℝ} (h : FacTendsto dims R u W) (i : Fin N)
    (x r : ℕ) :
    Tendsto (fun n => alsGrad dims R lam V (u n) i x r) atTop (𝓝 (alsGrad dims R lam V W i x r)) := by
  unfold alsGrad
  by_cases hw : x < dims i ∧ r < R
  · simp only [clip, hw, and_self, if_true]
    refine Tendsto.add (Tendsto.neg ?_) ?_
    · unfold mttkrp
      refine tendsto_finsetSum _ fun idx hidx => Tendsto.mul tendsto_const_nhds ?_
      refine tendsto_finsetProd _ fun j _ => h j _ ?_ r hw.2
      exact mem_Box.1 (mem_filter.1 hidx).1 j
    · refine tendsto_finsetSum _ fun k hk => (h i x hw.1 k (mem_range.1 hk)).mul ?_
      unfold normalMat
      simp only [clip, mem_range.1 hk, hw.2, and_self, if_true]
      exact (gramExcept_tendsto h i (mem_range.1 hk) hw.2).add tendsto_const_nhds
  · simp only [clip, hw, if_false]
    exact tendsto_const_nhds

/-- A bounded sequence of factors has a convergent subsequence. -/
theorem exists_facTendsto {u : ℕ → Fin N → ℕ → ℕ → ℝ} {C : ℝ} (hC : ∀ n j, ∀ x < dims j, ∀ r < R, |u n j x r| ≤ C) :
    ∃ (W : Fin N → ℕ → ℕ → ℝ) (φ : ℕ → ℕ), StrictMono φ ∧ FacTendsto dims R (fun n => u (φ n)) W := by
  set v : ℕ → Fin N → ℕ → ℕ → ℝ := fun n j => clip (dims j) R (u n j) with hv
  have hcomp : IsCompact {w : Fin N → ℕ → ℕ → ℝ | ∀ j x r, w j x r ∈ Set.Icc (-|C|) |C|} := by
    have : {w : Fin N → ℕ → ℕ → ℝ | ∀ j x r, w j x r ∈ Set.Icc (-|C|) |C|} =
        Set.pi Set.univ fun _ => Set.pi Set.univ fun _ => Set.pi Set.univ fun _ => Set.Icc (-|C|) |C| := by
      ext w; simp only [Set.mem_setOf_eq, Set.mem_pi, Set.mem_univ, true_implies]
    rw [this]
    exact isCompact_univ_pi fun _ => isCompact_univ_pi fun _ => isCompact_univ_pi fun _ => isCompact_Icc
  obtain ⟨W, _, φ, hφ, hlim⟩ := hcomp.tendsto_subseq (x := v) (by
    intro n j x r
    simp only [hv, clip]
    split_ifs with hw
    · exact abs_le.1 ((hC n j x hw.1 r hw.2).trans (le_abs_self C))
    · exact ⟨neg_nonpos.2 (abs_nonneg _), abs_nonneg _⟩)
  refine ⟨W, φ, hφ, fun j x hx r hr => ?_⟩
  have h1 := ((tendsto_pi_nhds.1 ((tendsto_pi_nhds.1 ((tendsto_pi_nhds.1 hlim) j)) x)) r)
  refine h1.congr fun n => ?_
  simp [hv, clip, hx, hr]

section trace

variable {solve : Solver ℝ} {st : ℕ → AlsState N ℝ} {modes : ℕ → List (Fin N)}

/-- A sequence of ALS states in which any two consecutive steps update every mode. -/
structure AlsTrace (dims : Fin N → ℕ) (R : ℕ) (lam : ℝ) (solve : Solver ℝ) (V : (Fin N → ℕ) → ℝ)
    (st : ℕ → AlsState N ℝ) (modes : ℕ → List (Fin N)) : Prop where
  step : ∀ k, st (k + 1) = alsRun dims R lam solve V (modes k) (st k)
  cover : ∀ k i, i ∈ modes k ++ modes (k + 1)
  len : ∀ k, (modes k).length ≤ N

variable (hT : AlsTrace dims R lam solve V st modes) (hl : 0 < lam)
  (h : ∀ W i, Solves (dims i) R (alsFactor dims R lam solve V W i) (normalMat dims R lam W i) (mttkrp dims V W i))

include hT in
theorem AlsTrace.two (k : ℕ) : st (k + 2) = alsRun dims R lam solve V (modes k ++ modes (k + 1)) (st k) := by
  rw [alsRun_append, ← hT.step k, ← hT.step (k + 1)]

include hT hl h in
theorem AlsTrace.anti (k : ℕ) : fullObj2 dims R lam V (st (k + 1)).W ≤ fullObj2 dims R lam V (st k).W := by
  rw [hT.step k]
  exact alsRun_mono hl.le h _ _

include hT hl h in
theorem AlsTrace.le_start (k : ℕ) : fullObj2 dims R lam V (st k).W ≤ fullObj2 dims R lam V (st 0).W :=
  antitone_nat_of_succ_le (f := fun k => fullObj2 dims R lam V (st k).W) (hT.anti hl h) (Nat.zero_le k)

include hT hl h in
theorem AlsTrace.grads (h2 : 2 ≤ N) (k : ℕ) :
    ∑ j, frob (dims j) R ((st (k + 2)).G j) ((st (k + 2)).G j) ≤
      ((fullObj2 dims R lam V (st 0).W / lam) ^ (N - 1) + R * lam) *
        (fullObj2 dims R lam V (st k).W - fullObj2 dims R lam V (st (k + 2)).W) := by
  have := alsRun_grads h2 hl h (modes k ++ modes (k + 1)) (st k) (hT.le_start hl h k)
  rw [← hT.two k] at this
  refine le_trans (le_of_eq ?_) this
  refine (sum_subset (subset_univ _) fun j _ hj => ?_).symm
  exact absurd (List.mem_toFinset.2 (hT.cover k j)) hj

include hT hl h in
theorem AlsTrace.drop_tendsto :
    Tendsto (fun k => fullObj2 dims R lam V (st k).W - fullObj2 dims R lam V (st (k + 2)).W) atTop (𝓝 0) := by
  have hanti : Antitone fun k => fullObj2 dims R lam V (st k).W := antitone_nat_of_succ_le (hT.anti hl h)
  have hb : BddBelow (Set.range fun k => fullObj2 dims R lam V (st k).W) :=
    ⟨0, by rintro _ ⟨k, rfl⟩; exact fullObj2_nonneg hl.le⟩
  have h1 := tendsto_atTop_ciInf hanti hb
  have h2 := h1.comp (tendsto_add_atTop_nat 2)
  have := h1.sub h2
  rw [sub_self] at this
  exact this

include hT hl h in
/-- For every mode there is, in any two consecutive steps, a moment at which its gradient is small and all factors are
close to those at the start of the two steps. -/
theorem AlsTrace.moment (h2 : 2 ≤ N) (k : ℕ) (i : Fin N) :
    ∃ W : Fin N → ℕ → ℕ → ℝ,
      frob (dims i) R (alsGrad dims R lam V W i) (alsGrad dims R lam V W i) ≤
        ((fullObj2 dims R lam V (st 0).W / lam) ^ (N - 1) + R * lam) *
          (fullObj2 dims R lam V (st k).W - fullObj2 dims R lam V (st (k + 2)).W) ∧
      ∀ j, ∀ x < dims j, ∀ r < R, |W j x r - (st k).W j x r| ≤ (2 * N : ℕ) *
        Real.sqrt ((fullObj2 dims R lam V (st k).W - fullObj2 dims R lam V (st (k + 2)).W) / lam) := by
  obtain ⟨l1, l2, hsplit⟩ := List.append_of_mem (hT.cover k i)
  have htwo := hT.two k
  rw [hsplit, alsRun_append] at htwo
  set mid := alsRun dims R lam solve V l1 (st k) with hmid
  have e : alsRun dims R lam solve V (i :: l2) mid = alsRun dims R lam solve V l2 (alsUpdate dims R lam solve V mid i) := rfl
  rw [e] at htwo
  have m1 : fullObj2 dims R lam V mid.W ≤ fullObj2 dims R lam V (st k).W := alsRun_mono hl.le h _ _
  have m2 : fullObj2 dims R lam V (st (k + 2)).W ≤ fullObj2 dims R lam V (alsUpdate dims R lam solve V mid i).W := by
    rw [htwo]; exact alsRun_mono hl.le h _ _
  have m3 : fullObj2 dims R lam V (alsUpdate dims R lam solve V mid i).W ≤ fullObj2 dims R lam V mid.W :=
    fullObj2_update_le hl.le (h mid.W i)
  have h0 := fullObj2_nonneg (dims := dims) (R := R) (V := V) (W := (st 0).W) hl.le
  refine ⟨mid.W, ?_, fun j x hx r hr => ?_⟩
  · have hm : fullObj2 dims R lam V mid.W ≤ fullObj2 dims R lam V (st 0).W := m1.trans (hT.le_start hl h k)
    have hb : ∀ j, frob (dims j) R (mid.W j) (mid.W j) ≤ fullObj2 dims R lam V (st 0).W / lam := fun j =>
      (frob_le_obj (V := V) hl j).trans (div_le_div_of_nonneg_right hm hl.le)
    refine (grad_le_decrease h2 hl.le hb (h mid.W i)).trans (mul_le_mul_of_nonneg_left ?_ ?_)
    · have m2' : fullObj2 dims R lam V (st (k + 2)).W ≤ fullObj2 dims R lam V
        (Function.update mid.W i (alsFactor dims R lam solve V mid.W i)) := m2
      linarith
    · have := div_nonneg h0 hl.le
      positivity
  · refine (alsRun_entries hl h l1 (st k) j hx hr).trans ?_
    have hlen : l1.length ≤ 2 * N := by
      have := congrArg List.length hsplit
      simp only [List.length_append, List.length_cons] at this
      have := hT.len k
      have := hT.len (k + 1)
      omega
    refine mul_le_mul (by exact_mod_cast hlen) (Real.sqrt_le_sqrt (div_le_div_of_nonneg_right ?_ hl.le))
      (Real.sqrt_nonneg _) (Nat.cast_nonneg _)
    have : fullObj2 dims R lam V (st (k + 2)).W ≤ fullObj2 dims R lam V (alsRun dims R lam solve V l1 (st k)).W :=
      m2.trans m3
    linarith

include hT hl h in
/-- Every limit point of the factors is a stationary point. -/
theorem AlsTrace.stationary (h2 : 2 ≤ N) {φ : ℕ → ℕ} (hφ : Tendsto φ atTop atTop) {W : Fin N → ℕ → ℕ → ℝ}
    (hW : FacTendsto dims R (fun n => (st (φ n)).W) W) (i : Fin N) (x r : ℕ) : alsGrad dims R lam V W i x r = 0 := by
  choose mid hm1 hm2 using fun k => hT.moment hl h h2 k i
  have hd := (hT.drop_tendsto hl h).comp hφ
  have hmid : FacTendsto dims R (fun n => mid (φ n)) W := by
    intro j x hx r hr
    have hz : Tendsto (fun n => mid (φ n) j x r - (st (φ n)).W j x r) atTop (𝓝 0) := by
      refine (tendsto_zero_iff_abs_tendsto_zero _).2 (squeeze_zero (fun _ => abs_nonneg _) (fun n => hm2 (φ n) j x hx r hr) ?_)
      have := ((Real.continuous_sqrt.tendsto _).comp (hd.div_const lam)).const_mul ((2 * N : ℕ) : ℝ)
      simpa using this
    have := hz.add (hW j x hx r hr)
    simpa using this
  have hlim := alsGrad_tendsto (lam := lam) (V := V) hmid i x r
  by_cases hw : x < dims i ∧ r < R
  · have hz : Tendsto (fun n => alsGrad dims R lam V (mid (φ n)) i x r) atTop (𝓝 0) := by
      have hb : ∀ n, |alsGrad dims R lam V (mid (φ n)) i x r| ≤
          Real.sqrt (((fullObj2 dims R lam V (st 0).W / lam) ^ (N - 1) + R * lam) *
          (fullObj2 dims R lam V (st (φ n)).W - fullObj2 dims R lam V (st (φ n + 2)).W)) := by
        intro n
        apply Real.le_sqrt_of_sq_le
        rw [sq_abs, sq]
        refine le_trans ?_ (hm1 (φ n))
        unfold frob
        refine le_trans ?_ (single_le_sum (f := fun x => ∑ r ∈ range R, alsGrad dims R lam V (mid (φ n)) i x r *
          alsGrad dims R lam V (mid (φ n)) i x r) (fun x _ => sum_nonneg fun _ _ => mul_self_nonneg _) (mem_range.2 hw.1))
        exact single_le_sum (f := fun r => alsGrad dims R lam V (mid (φ n)) i x r *
          alsGrad dims R lam V (mid (φ n)) i x r) (fun _ _ => mul_self_nonneg _) (mem_range.2 hw.2)
      refine (tendsto_zero_iff_abs_tendsto_zero _).2 (squeeze_zero (fun _ => abs_nonneg _) hb ?_)
      have := (Real.continuous_sqrt.tendsto _).comp (hd.const_mul
        ((fullObj2 dims R lam V (st 0).W / lam) ^ (N - 1) + R * lam))
      simpa [Function.comp_def] using this
    exact tendsto_nhds_unique hlim hz
  · unfold alsGrad
    simp [clip, hw]

include hT hl h in
theorem AlsTrace.bounded (k : ℕ) (j : Fin N) {x r : ℕ} (hx : x < dims j) (hr : r < R) :
    |(st k).W j x r| ≤ Real.sqrt (fullObj2 dims R lam V (st 0).W / lam) := by
  apply Real.le_sqrt_of_sq_le
  rw [sq_abs, sq]
  refine le_trans ?_ ((frob_le_obj (V := V) (W := (st k).W) hl j).trans
    (div_le_div_of_nonneg_right (hT.le_start hl h k) hl.le))
  unfold frob
  refine le_trans ?_ (single_le_sum (f := fun x => ∑ r ∈ range R, (st k).W j x r * (st k).W j x r)
    (fun x _ => sum_nonneg fun _ _ => mul_self_nonneg _) (mem_range.2 hx))
  exact single_le_sum (f := fun r => (st k).W j x r * (st k).W j x r) (fun _ _ => mul_self_nonneg _) (mem_range.2 hr)

include hT hl h in
/-- The gradient at the current factors tends to zero. -/
theorem AlsTrace.grad_tendsto (h2 : 2 ≤ N) (i : Fin N) (x r : ℕ) :
    Tendsto (fun k => alsGrad dims R lam V (st k).W i x r) atTop (𝓝 0) := by
  refine tendsto_of_subseq_tendsto fun ns hns => ?_
  obtain ⟨W, φ, hφ, hW⟩ := exists_facTendsto (dims := dims) (R := R) (u := fun n => (st (ns n)).W)
    (fun n j x hx r hr => hT.bounded hl h (ns n) j hx hr)
  refine ⟨φ, ?_⟩
  have := alsGrad_tendsto (lam := lam) (V := V) hW i x r
  rwa [hT.stationary hl h h2 (hns.comp hφ.tendsto_atTop) hW i x r] at this

end trace

end Spec
