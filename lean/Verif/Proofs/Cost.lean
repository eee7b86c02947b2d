import Verif.Model.Cost
import Verif.Proofs.DTSteps

/-! The recording copies compute what the originals compute. -/

namespace Model

open Spec (Tag Work)

/-- Forgetting the record of `c` gives `x`. -/
def Erases {α : Type} (c : CM α) (x : Except Fault α) : Prop := ∀ log, (c log).map Prod.fst = x

theorem Erases.pure {α : Type} (a : α) : Erases (Pure.pure a : CM α) (.ok a) := fun _ => rfl

theorem Erases.err {α : Type} (e : Fault) : Erases (fun _ => .error e : CM α) (.error e) := fun _ => rfl

theorem Erases.lift {α : Type} (x : Except Fault α) : Erases (liftM x : CM α) x := by
  intro log
  cases x <;> rfl

theorem Erases.bind {α β : Type} {c : CM α} {x : Except Fault α} {f : α → CM β} {g : α → Except Fault β}
    (h : Erases c x) (hf : ∀ a, Erases (f a) (g a)) : Erases (c >>= f) (x >>= g) := by
  intro log
  have h' := h log
  show ((c log).bind fun p => f p.1 p.2).map Prod.fst = x.bind g
  cases hc : c log with
  | error e =>
    rw [hc] at h'
    rw [← h']
    rfl
  | ok p =>
    rw [hc] at h'
    rw [← h']
    exact hf p.1 p.2

theorem Erases.ite {α : Type} {p : Prop} [Decidable p] {c d : CM α} {x y : Except Fault α} (h : Erases c x) (h' : Erases d y) :
    Erases (if p then c else d) (if p then x else y) := by
  by_cases hp : p
  · rw [if_pos hp, if_pos hp]; exact h
  · rw [if_neg hp, if_neg hp]; exact h'

theorem Erases.foldlM {α β : Type} {f : α → β → CM α} {g : α → β → Except Fault α} (h : ∀ a b, Erases (f a b) (g a b)) :
    ∀ (l : List β) (a : α), Erases (l.foldlM f a) (l.foldlM g a)
  | [], a => Erases.pure a
  | b :: l, a => by
    rw [List.foldlM_cons, List.foldlM_cons]
    exact (h a b).bind fun a' => Erases.foldlM h l a'

variable {K : Type} [CommRing K]

theorem einsumC_erases (t : Tag) (lensC : List ℕ) (sc : List Label) (ops : List (Tensor K × List Label)) :
    Erases (einsumC t lensC sc ops) (einsum lensC sc ops) := by
  intro log
  unfold einsumC
  cases einsum lensC sc ops <;> rfl

theorem krStepC_erases (t : Tag) (W : List (Tensor K)) (index : List ℤ) (lensH : List ℕ) (n R : ℕ)
    (front : Tensor K) (seq : List Label) (j : ℕ) :
    Erases (krStepC t W index lensH n R front seq j) (krStep W index lensH n R front seq j) :=
  (Erases.lift _).bind fun _ => (Erases.lift _).bind fun _ => einsumC_erases _ _ _ _

theorem krContractC_erases (Mlens : List ℕ) (V : Tensor K) (W : List (Tensor K)) (index : List ℤ) (lensH : List ℕ) :
    Erases (krContractC Mlens V W index lensH) (krContract Mlens V W index lensH) :=
  (Erases.lift _).bind fun _ => (krStepC_erases _ _ _ _ _ _ _ _ _).bind fun _ =>
    (Erases.foldlM (fun _ _ => krStepC_erases _ _ _ _ _ _ _ _ _) _ _).bind fun _ => einsumC_erases _ _ _ _

theorem simpleMC_erases (order : ℕ) (V : Tensor K) (W : List (Tensor K)) (i : ℕ) :
    Erases (simpleMC order V W i) (simpleM order V W i) :=
  (Erases.lift _).bind fun _ => (Erases.lift _).bind fun _ => krContractC_erases _ _ _ _ _

theorem gramSC_erases (index : List ℕ) (rank : ℕ) (lam : K) (W : List (Tensor K)) :
    Erases (gramSC index rank lam W) (gramS index rank lam W) :=
  (Erases.lift _).bind fun _ => (Erases.lift _).bind fun _ => (einsumC_erases _ _ _ _).bind fun _ =>
    (Erases.foldlM (fun _ _ => (Erases.lift _).bind fun _ => einsumC_erases _ _ _ _) _ _).bind fun _ => Erases.lift _

theorem modeTailC_erases (solve : Spec.Solver K) (f : Fac K) (m : ℕ) (M S : Tensor K) :
    Erases (modeTailC solve f m M S) (modeTail solve f m M S) :=
  (Erases.lift _).bind fun _ => (einsumC_erases _ _ _ _).bind fun _ => (Erases.lift _).bind fun _ => Erases.pure _

theorem updateModeC_erases (order rank : ℕ) (lam : K) (solve : Spec.Solver K) (f : Fac K) (m : ℕ) (M : Tensor K) :
    Erases (updateModeC order rank lam solve f m M) (updateMode order rank lam solve f m M) :=
  (gramSC_erases _ _ _ _).bind fun _ => modeTailC_erases _ _ _ _ _

theorem simpleStepC_erases (order rank : ℕ) (lam : K) (solve : Spec.Solver K) (V : Tensor K) (f : Fac K) :
    Erases (simpleStepC order rank lam solve V f) (simpleStep order rank lam solve V f) :=
  Erases.foldlM (fun _ _ => (simpleMC_erases _ _ _ _).bind fun _ => updateModeC_erases _ _ _ _ _ _ _) _ _

theorem topTC_erases (order : ℕ) (V : Tensor K) (W : List (Tensor K)) (left : ℕ) :
    Erases (topTC order V W left) (topT order V W left) :=
  (Erases.lift _).bind fun _ => (Erases.lift _).bind fun _ => einsumC_erases _ _ _ _

theorem mapInitC_erases (order : ℕ) (V : Tensor K) (W : List (Tensor K)) (left : ℕ) :
    Erases (mapInitC order V W left) (mapInit order V W left) :=
  (topTC_erases _ _ _ _).bind fun _ => Erases.pure _

theorem mttkrpMapDTC_erases (tree : Tree) (indexes : List ℕ) (V : Tensor K) (W : List (Tensor K)) :
    ∀ (fuel : ℕ) (key : Key) (cache : Cache K),
      Erases (mttkrpMapDTC tree indexes V W fuel key cache) (mttkrpMapDT tree indexes V W fuel key cache)
  | 0, _, _ => Erases.err _
  | fuel + 1, key, cache => by
    rw [mttkrpMapDTC, mttkrpMapDT]
    refine (Erases.ite (mttkrpMapDTC_erases tree indexes V W fuel _ cache) (Erases.pure _)).bind fun c => ?_
    refine (Erases.lift _).bind fun _ => (Erases.lift _).bind fun _ => (Erases.lift _).bind fun _ =>
      (Erases.lift _).bind fun _ => ?_
    cases c.lookup (mapGet tree.parent key) with
    | none => exact Erases.err _
    | some Tp => exact (einsumC_erases _ _ _ _).bind fun _ => Erases.pure _

theorem treeMC_erases (order : ℕ) (tree : Tree) (V : Tensor K) (indexes : List ℕ) (W : List (Tensor K))
    (cache : Cache K) (i : ℕ) :
    Erases (treeMC order tree V indexes W cache i) (treeM order tree V indexes W cache i) := by
  refine (Erases.ite (mttkrpMapDTC_erases _ _ _ _ _ _ _) (Erases.pure _)).bind fun c => ?_
  beta_reduce
  cases c.lookup (vec2str [i]) with
  | none => exact Erases.err _
  | some M => exact Erases.pure _

theorem treeUpdateC_erases (order rank : ℕ) (lam : K) (solve : Spec.Solver K) (tree : Tree) (V : Tensor K)
    (indexes : List ℕ) (s : Fac K × Cache K) (i : ℕ) :
    Erases (treeUpdateC order rank lam solve tree V indexes s i) (treeUpdate order rank lam solve tree V indexes s i) :=
  (treeMC_erases _ _ _ _ _ _ _).bind fun _ => (Erases.lift _).bind fun _ => (updateModeC_erases _ _ _ _ _ _ _).bind fun _ =>
    Erases.pure _

theorem dtStepC_erases (order rank : ℕ) (lam : K) (solve : Spec.Solver K) (V : Tensor K) (s : DTState × Fac K) :
    Erases (dtStepC order rank lam solve V s) (dtStep order rank lam solve V s) :=
  (mapInitC_erases _ _ _ _).bind fun _ => (Erases.foldlM (fun _ _ => treeUpdateC_erases _ _ _ _ _ _ _ _ _) _ _).bind fun _ =>
    Erases.pure _

theorem msdtStepC_erases (order rank : ℕ) (lam : K) (solve : Spec.Solver K) (V : Tensor K) (s : MSDTState × Fac K) :
    Erases (msdtStepC order rank lam solve V s) (msdtStep order rank lam solve V s) :=
  (mapInitC_erases _ _ _ _).bind fun _ => (Erases.foldlM (fun _ _ => treeUpdateC_erases _ _ _ _ _ _ _ _ _) _ _).bind fun _ =>
    Erases.pure _

theorem iterC_erases {σ : Type} {step : σ → CM σ} {step' : σ → Except Fault σ} (h : ∀ s, Erases (step s) (step' s)) :
    ∀ (n : ℕ) (s : σ), Erases (iterC step n s) (iterM step' n s)
  | 0, s => Erases.pure s
  | n + 1, s => (h s).bind fun s' => iterC_erases h n s'

theorem ppFromRootC_erases (same : Bool) (N : ℕ) (V : Tensor K) (W : List (Tensor K)) (seq : Key) :
    Erases (ppFromRootC same N V W seq) (ppFromRoot same N V W seq) :=
  (Erases.lift _).bind fun _ => (Erases.lift _).bind fun _ => (Erases.lift _).bind fun _ => (Erases.lift _).bind fun _ =>
    (Erases.lift _).bind fun _ => einsumC_erases _ _ _ _

theorem ppFromParentC_erases (N : ℕ) (V : Tensor K) (W : List (Tensor K)) (seq : Key) (Tp : Tensor K) :
    Erases (ppFromParentC N V W seq Tp) (ppFromParent N V W seq Tp) :=
  (Erases.lift _).bind fun _ => (Erases.lift _).bind fun _ => (Erases.lift _).bind fun _ => (Erases.lift _).bind fun _ =>
    (Erases.lift _).bind fun _ => einsumC_erases _ _ _ _

theorem buildNodeC_erases {τ : Type} {fr : Key → CM τ} {fr' : Key → Except Fault τ} {fp : Key → τ → CM τ}
    {fp' : Key → τ → Except Fault τ} (h1 : ∀ k, Erases (fr k) (fr' k)) (h2 : ∀ k t, Erases (fp k t) (fp' k t)) :
    ∀ (n : ℕ) (seq : Key) (_ : seq.length ≤ n) (cache : List (Key × τ)),
      Erases (buildNodeC fr fp seq cache) (buildNode fr' fp' seq cache)
  | n, seq, hn, cache => by
    rw [buildNodeC, buildNode]
    refine Erases.ite ((h1 seq).bind fun _ => Erases.pure _) ?_
    by_cases h : seq.length = 0 ∨ 8 < seq.length
    · rw [dif_pos h, dif_pos h]
      exact Erases.err _
    · rw [dif_neg h, dif_neg h]
      cases n with
      | zero => omega
      | succ n =>
        refine (Erases.ite (buildNodeC_erases h1 h2 n seq.dropLast (by simp; omega) cache) (Erases.pure _)).bind fun c => ?_
        cases c.lookup seq.dropLast with
        | none => exact Erases.err _
        | some Tp => exact (h2 _ _).bind fun _ => Erases.pure _

theorem ppOperatorsC_erases (same : Bool) (N : ℕ) (V : Tensor K) (W : List (Tensor K)) :
    Erases (ppOperatorsC same N V W) (ppOperators same N V W) :=
  Erases.foldlM (fun _ _ => buildNodeC_erases (fun _ => ppFromRootC_erases _ _ _ _ _) (fun _ _ => ppFromParentC_erases _ _ _ _ _)
    _ _ (le_refl _) _) _ _

theorem accumC_erases (M : Tensor K) (sc : Key) (ops : List (Tensor K × Key)) : Erases (accumC M sc ops) (accum M sc ops) :=
  (einsumC_erases _ _ _ _).bind fun _ => Erases.lift _

theorem ppContribC_erases (N : ℕ) (ops : Cache K) (dW : List (Tensor K)) (i : ℕ) (M : Tensor K) (j : ℕ) :
    Erases (ppContribC N ops dW i M j) (ppContrib N ops dW i M j) := by
  refine (Erases.lift _).bind fun _ => ?_
  beta_reduce
  refine Erases.ite ?_ ?_
  · cases ops.lookup (exceptTwo (allLetters N) j i) with
    | none => exact Erases.err _
    | some T => exact accumC_erases _ _ _
  · cases ops.lookup (exceptTwo (allLetters N) i j) with
    | none => exact Erases.err _
    | some T => exact accumC_erases _ _ _

theorem ppMC_erases (N : ℕ) (ops : Cache K) (dW : List (Tensor K)) (i : ℕ) : Erases (ppMC N ops dW i) (ppM N ops dW i) := by
  unfold ppMC ppM
  cases ops.lookup (exceptOne (allLetters N) i) with
  | none => exact Erases.err _
  | some T => exact Erases.foldlM (fun _ _ => ppContribC_erases _ _ _ _ _ _) _ _

theorem ppUpdateC_erases {F : Type} [Field F] [DecidableEq F] (N rank : ℕ) (lam ratio : F) (k : Kern F) (ops : Cache F)
    (Winit : List (Tensor F)) (s : PPState F) (i : ℕ) :
    Erases (ppUpdateC N rank lam ratio k ops Winit s i) (ppUpdate N rank lam ratio k ops Winit s i) :=
  (ppMC_erases _ _ _ _).bind fun _ => (gramSC_erases _ _ _ _).bind fun _ => (Erases.lift _).bind fun _ =>
    (einsumC_erases _ _ _ _).bind fun _ => (Erases.lift _).bind fun _ => (Erases.lift _).bind fun _ =>
    (Erases.lift _).bind fun _ => Erases.pure _

theorem ppUpdatesC_erases {F : Type} [Field F] [DecidableEq F] (N rank : ℕ) (lam ratio : F) (k : Kern F) (ops : Cache F)
    (Winit : List (Tensor F)) (s : PPState F) :
    Erases (ppUpdatesC N rank lam ratio k ops Winit s) (ppUpdates N rank lam ratio k ops Winit s) :=
  Erases.foldlM (fun _ _ => ppUpdateC_erases _ _ _ _ _ _ _ _ _) _ _

end Model
