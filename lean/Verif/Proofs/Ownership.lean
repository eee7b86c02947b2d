import Verif.Model.Ownership
import Mathlib.Tactic.Ring
import Mathlib.Tactic.Linarith

/-! # Proofs about the ownership model -/

namespace Model

/-- Fresh addresses are not live, and automatic objects are not heap blocks. -/
structure Heap.Ok (h : Heap) : Prop where
  fresh : ∀ p, h.next ≤ p → h.live p = none
  auto : ∀ p, h.auto p = true → h.live p = none ∧ p < h.next

/-- Usable pointer. -/
def Heap.Usable (h : Heap) (p : Option ℕ) : Prop := h.use p = .ok ()

theorem use_cases (h : Heap) (p : Option ℕ) : h.use p = .ok () ∨ h.use p = .error .ub := by
  unfold Heap.use
  cases p with
  | none => right; rfl
  | some p => simp only; split_ifs <;> simp

theorem free_cases (h : Heap) (k : BlockKind) (p : Option ℕ) :
    (∃ h', h.free k p = .ok h' ∧ h'.next = h.next ∧ h'.auto = h.auto ∧ ∀ q, h.live q = none → h'.live q = none) ∨
      h.free k p = .error .ub := by
  unfold Heap.free
  cases p with
  | none => left; exact ⟨h, rfl, rfl, rfl, fun _ h => h⟩
  | some p =>
    simp only
    split_ifs with hp
    · left
      refine ⟨_, rfl, rfl, rfl, fun q hq => ?_⟩
      by_cases h' : q = p
      · simp [h']
      · simp [h', hq]
    · right; rfl

theorem free_dead {h : Heap} {k : BlockKind} {p : ℕ} (hp : h.live p = none) : h.free k (some p) = .error .ub := by
  simp [Heap.free, hp]

/-- A second `Init` is undefined behaviour. -/
theorem cpdInit_second {d : CpdObj} {h : Heap} {p : ℕ} (hV : d.V = some p) (hoV : d.oV = some p) (hp : p < h.next)
    (v w : Option ℕ) : cpdInit d h v w = .error .ub := by
  unfold cpdInit decompInit
  simp only [bind, Except.bind, pure, Except.pure]
  rcases use_cases h v with e | e <;> rw [e] <;> try rfl
  simp only
  rcases use_cases h d.size with e1 | e1 <;> rw [e1] <;> try rfl
  simp only
  rcases use_cases h w with e2 | e2 <;> rw [e2] <;> try rfl
  simp only
  rcases use_cases h d.rank with e3 | e3 <;> rw [e3] <;> try rfl
  simp only
  rw [hV]
  by_cases hl : h.live p = some .single
  · have ef : h.free .single (some p) = .ok ⟨Function.update h.live p none, h.auto, h.next⟩ := by simp [Heap.free, hl]
    rw [ef]
    simp only
    have h0 : (⟨Function.update h.live p none, h.auto, h.next⟩ : Heap).live p = none := by simp
    generalize hh : (⟨Function.update h.live p none, h.auto, h.next⟩ : Heap) = h1 at *
    have hn1 : p < h1.next := by rw [← hh]; exact hp
    cases hw : w with
    | none => rw [hw] at e2; simp [Heap.use] at e2
    | some w' =>
      simp only [ne_eq, reduceCtorEq, not_false_eq_true, if_true]
      rcases free_cases h1 .array d.W with ⟨h2, e4, n2, -, l2⟩ | e4 <;> rw [e4] <;> try rfl
      simp only
      rcases free_cases h2 .array d.gradW with ⟨h3, e5, n3, -, l3⟩ | e5 <;> rw [e5] <;> try rfl
      simp only
      have hdead : (h3.alloc .array).2.live p = none := by
        have : p ≠ h3.next := by omega
        simp only [Heap.alloc, Function.update_of_ne this]
        exact l3 p (l2 p h0)
      generalize (h3.alloc .array).2 = h4 at *
      rcases use_cases h4 d.optimizer with e6 | e6 <;> rw [e6] <;> try rfl
      simp only
      unfold configure
      simp only [bind, Except.bind, pure, Except.pure]
      rcases use_cases h4 v with e7 | e7 <;> rw [e7] <;> try rfl
      simp only
      rcases use_cases h4 (some w') with e8 | e8 <;> rw [e8] <;> try rfl
      simp only
      rw [hoV, free_dead hdead]
  · have : h.free .single (some p) = .error .ub := by simp [Heap.free, hl]
    rw [this]

/-- The object between the constructor and `Init`. -/
def CpdObj.Blank (d : CpdObj) : Prop := d.V = none ∧ d.W = none ∧ d.gradW = none

/-- `als` before `Init` is undefined behaviour once its loop is entered. -/
theorem cpdAlsAcc_blank {d : CpdObj} (hd : d.Blank) (h : Heap) (n : ℕ) : cpdAlsAcc n d h = .error .ub := by
  cases n <;> simp [cpdAlsAcc, hd.2.2, Heap.use, bind, Except.bind]

/-- A call that does nothing. -/
def CpdCall.idle : CpdCall → Prop
  | .als false _ => True
  | _ => False

/-- A call of `als`. -/
def CpdCall.isAls : CpdCall → Prop
  | .als _ _ => True
  | _ => False

theorem cpdCalls_cons (d : CpdObj) (h : Heap) (c : CpdCall) (l : List CpdCall) :
    cpdCalls d h (c :: l) = (cpdCall d h c).bind fun s => cpdCalls s.1 s.2 l := by
  unfold cpdCalls
  rw [List.foldlM_cons]
  rfl

theorem cpdCalls_append (d : CpdObj) (h : Heap) (l l' : List CpdCall) :
    cpdCalls d h (l ++ l') = (cpdCalls d h l).bind fun s => cpdCalls s.1 s.2 l' := by
  unfold cpdCalls
  rw [List.foldlM_append]
  rfl

theorem cpdCalls_idle {d : CpdObj} {h : Heap} {l : List CpdCall} (hl : ∀ c ∈ l, c.idle) : cpdCalls d h l = .ok (d, h) := by
  induction l with
  | nil => rfl
  | cons c l ih =>
    have hc := hl c (by simp)
    rw [cpdCalls_cons]
    match c, hc with
    | .als false n, _ =>
      simp only [cpdCall, Except.bind]
      exact ih fun c hc => hl c (by simp [hc])

/-! ## After one `Init` -/

/-- Address and members after constructor and `Init(v, w)`; `n` is the first address used. -/
structure Inited (kind : OptKind) (h0 : Heap) (v w : ℕ) (d : CpdObj) (h : Heap) : Prop where
  kind_eq : d.kind = kind
  size : d.size = some h0.next
  rank : d.rank = some (h0.next + 1)
  V : d.V = some v
  W : d.W = some w
  opt : d.optimizer = some (h0.next + 2)
  oV : d.oV = some v
  oW : d.oW = some w
  auto : h.auto = h0.auto
  rest : if kind = .msdtlr then
      d.isCached = some (h0.next + 3) ∧ d.cachedTensors = some (h0.next + 4) ∧ d.oldW = some (h0.next + 5) ∧
      d.gradW = some (h0.next + 6) ∧ d.oGrad = some (h0.next + 6) ∧ h.next = h0.next + 7 ∧
      h.live = fun p => if p = h0.next + 2 then some .single else
        if h0.next ≤ p ∧ p < h0.next + 7 then some .array else h0.live p
    else
      d.gradW = some (h0.next + 3) ∧ d.oGrad = some (h0.next + 3) ∧
      ∃ m, h.next = h0.next + 4 + m ∧
        (h.live = fun p => if p = h0.next + 2 then some .single else
          if h0.next ≤ p ∧ p < h0.next + 4 then some .array else
          if h0.next ≤ p ∧ p < h0.next + 4 + m then some .single else h0.live p) ∧
        ((m = 0 ∧ d.cached1 = none ∧ d.cached2 = none ∧ d.first = true) ∨
         (kind = .dtlr ∧ m = 1 ∧ d.cached1 = some (h0.next + 4) ∧ d.cached2 = none ∧ d.first = false) ∨
         (kind = .dtlr ∧ m = 2 ∧ d.cached1 = some (h0.next + 4) ∧ d.cached2 = some (h0.next + 5)))

/-- Arguments of `Init`: a tensor that is live or automatic, and an array of matrices allocated with `new[]`. -/
def InitArgs (h : Heap) (v w : Option ℕ) : Prop :=
  ∃ p q, v = some p ∧ w = some q ∧ (h.live p = some .single ∨ h.auto p = true) ∧ h.live q = some .array

theorem blank_construct (kind : OptKind) (h : Heap) : (cpdConstruct kind h).1.Blank := by
  unfold cpdConstruct
  dsimp only
  split_ifs <;> exact ⟨rfl, rfl, rfl⟩

theorem use_ok {h : Heap} {p : ℕ} {k : BlockKind} (hp : h.live p = some k) : h.use (some p) = .ok () := by
  simp [Heap.use, hp]

theorem cpdInit_first {d : CpdObj} {h : Heap} {p q : ℕ} (hd : d.Blank) (h1 : d.oV = none) (h2 : d.oW = none) (h3 : d.oGrad = none)
    (us : h.use d.size = .ok ()) (ur : h.use d.rank = .ok ()) (uo : (h.alloc .array).2.use d.optimizer = .ok ())
    (up : h.use (some p) = .ok ()) (up' : (h.alloc .array).2.use (some p) = .ok ())
    (uq : h.use (some q) = .ok ()) (uq' : (h.alloc .array).2.use (some q) = .ok ()) :
    cpdInit d h (some p) (some q) =
      .ok ({ d with V := some p, W := some q, gradW := some h.next, oV := some p, oW := some q, oGrad := some h.next },
        (h.alloc .array).2) := by
  unfold cpdInit decompInit configure
  simp only [up, us, uq, ur, hd.1, hd.2.1, hd.2.2, Heap.free, bind, Except.bind, pure, Except.pure, ne_eq, reduceCtorEq,
    not_false_eq_true, if_true, uo, up', uq', h1, h2, h3]
  rfl

theorem inited {kind : OptKind} {h : Heap} (hh : h.Ok) {v w : Option ℕ} (ha : InitArgs h v w) :
    ∃ p q d h', v = some p ∧ w = some q ∧ h.live q = some .array ∧ p < h.next ∧
      cpdInit (cpdConstruct kind h).1 (cpdConstruct kind h).2 v w = .ok (d, h') ∧ Inited kind h p q d h' := by
  obtain ⟨p, q, rfl, rfl, hp, hq⟩ := ha
  have hpn : p < h.next := by
    rcases hp with hp | hp
    · by_contra hc
      rw [hh.fresh p (by omega)] at hp; cases hp
    · exact (hh.auto p hp).2
  have hqn : q < h.next := by
    by_contra hc
    rw [hh.fresh q (by omega)] at hq; cases hq
  have up : ∀ h' : Heap, h'.auto = h.auto → h'.live p = h.live p → h'.use (some p) = .ok () := by
    intro h' e1 e2
    rcases hp with hp | hp
    · exact use_ok (e2.trans hp)
    · simp [Heap.use, e1, hp]
  have uq : ∀ h' : Heap, h'.live q = h.live q → h'.use (some q) = .ok () := fun h' e => use_ok (e.trans hq)
  by_cases hk : kind = .msdtlr
  · refine ⟨p, q, _, _, rfl, rfl, hq, hpn, cpdInit_first (blank_construct _ _) ?_ ?_ ?_ ?_ ?_ ?_ (up _ ?_ ?_) (up _ ?_ ?_) (uq _ ?_) (uq _ ?_), ?_⟩
    all_goals simp only [cpdConstruct, if_pos hk, Heap.alloc]
    · exact use_ok (k := .array) (by simp only [Function.update_apply]; split_ifs <;> first | rfl | omega)
    · exact use_ok (k := .array) (by simp only [Function.update_apply]; split_ifs <;> first | rfl | omega)
    · exact use_ok (k := .single) (by simp only [Function.update_apply]; split_ifs <;> first | rfl | omega)
    · simp only [Function.update_apply]; split_ifs <;> first | rfl | omega
    · simp only [Function.update_apply]; split_ifs <;> first | rfl | omega
    · simp only [Function.update_apply]; split_ifs <;> first | rfl | omega
    · simp only [Function.update_apply]; split_ifs <;> first | rfl | omega
    · refine ⟨rfl, rfl, rfl, rfl, rfl, rfl, rfl, rfl, rfl, ?_⟩
      rw [if_pos hk]
      refine ⟨rfl, rfl, rfl, rfl, rfl, rfl, ?_⟩
      funext x
      simp only [Function.update_apply]
      split_ifs <;> first | rfl | omega
  · refine ⟨p, q, _, _, rfl, rfl, hq, hpn, cpdInit_first (blank_construct _ _) ?_ ?_ ?_ ?_ ?_ ?_ (up _ ?_ ?_) (up _ ?_ ?_) (uq _ ?_) (uq _ ?_), ?_⟩
    all_goals simp only [cpdConstruct, if_neg hk, Heap.alloc]
    · exact use_ok (k := .array) (by simp only [Function.update_apply]; split_ifs <;> first | rfl | omega)
    · exact use_ok (k := .array) (by simp only [Function.update_apply]; split_ifs <;> first | rfl | omega)
    · exact use_ok (k := .single) (by simp only [Function.update_apply]; split_ifs <;> first | rfl | omega)
    · simp only [Function.update_apply]; split_ifs <;> first | rfl | omega
    · simp only [Function.update_apply]; split_ifs <;> first | rfl | omega
    · simp only [Function.update_apply]; split_ifs <;> first | rfl | omega
    · simp only [Function.update_apply]; split_ifs <;> first | rfl | omega
    · refine ⟨rfl, rfl, rfl, rfl, rfl, rfl, rfl, rfl, rfl, ?_⟩
      rw [if_neg hk]
      refine ⟨rfl, rfl, 0, rfl, ?_, Or.inl ⟨rfl, rfl, rfl, rfl⟩⟩
      funext x
      simp only [Function.update_apply]
      split_ifs <;> first | rfl | omega

/-! ## `als` and the destructor -/

/-- The tensor and the factors are usable at the start. -/
structure ArgsAt (h0 : Heap) (v w : ℕ) : Prop where
  uv : h0.live v = some .single ∨ h0.auto v = true
  uw : h0.live w = some .array
  vn : v < h0.next
  wn : w < h0.next

theorem Inited.uses {kind : OptKind} {h0 h : Heap} {v w : ℕ} {d : CpdObj} (ha : ArgsAt h0 v w)
    (hi : Inited kind h0 v w d h) :
    h.use d.V = .ok () ∧ h.use d.W = .ok () ∧ h.use d.gradW = .ok () ∧ h.use d.optimizer = .ok () ∧
      h.use d.oV = .ok () ∧ h.use d.oW = .ok () ∧ h.use d.oGrad = .ok () := by
  have key : (h.live v = h0.live v ∧ h.live w = h0.live w) ∧ h.use d.gradW = .ok () ∧ h.use d.optimizer = .ok () ∧
      h.use d.oGrad = .ok () := by
    obtain ⟨hv, hw, hvn, hwn⟩ := ha
    have hr := hi.rest
    rw [hi.opt]
    by_cases hk : kind = .msdtlr
    · rw [if_pos hk] at hr
      obtain ⟨-, -, -, e1, e2, -, hl⟩ := hr
      rw [e1, e2]
      refine ⟨⟨?_, ?_⟩, use_ok (k := .array) ?_, use_ok (k := .single) ?_, use_ok (k := .array) ?_⟩ <;> rw [hl] <;> simp only <;>
        split_ifs <;> first | rfl | omega
    · rw [if_neg hk] at hr
      obtain ⟨e1, e2, m, -, hl, -⟩ := hr
      rw [e1, e2]
      refine ⟨⟨?_, ?_⟩, use_ok (k := .array) ?_, use_ok (k := .single) ?_, use_ok (k := .array) ?_⟩ <;> rw [hl] <;> simp only <;>
        split_ifs <;> first | rfl | omega
  obtain ⟨⟨kv, kw⟩, k1, k2, k3⟩ := key
  have uv : h.use (some v) = .ok () := by
    rcases ha.uv with hv | hv
    · exact use_ok (kv.trans hv)
    · simp [Heap.use, hi.auto, hv]
  have uw : h.use (some w) = .ok () := use_ok (kw.trans ha.uw)
  rw [hi.V, hi.W, hi.oV, hi.oW]
  exact ⟨uv, uw, k1, k2, uv, uw, k3⟩

theorem Inited.step {kind : OptKind} {h0 h : Heap} {v w : ℕ} {d : CpdObj} (ha : ArgsAt h0 v w)
    (hi : Inited kind h0 v w d h) : ∃ d' h', cpdStep d h = .ok (d', h') ∧ Inited kind h0 v w d' h' := by
  obtain ⟨u1, u2, u3, u4, u5, u6, u7⟩ := hi.uses ha
  have hr := hi.rest
  unfold cpdStep
  simp only [u4, u5, u6, u7, bind, Except.bind, pure, Except.pure, hi.kind_eq]
  cases kind with
  | simple => exact ⟨d, h, rfl, hi⟩
  | dt => exact ⟨d, h, rfl, hi⟩
  | msdt => exact ⟨d, h, rfl, hi⟩
  | msdtlr =>
    rw [if_pos rfl] at hr
    obtain ⟨e1, e2, e3, -, -, -, hl⟩ := hr
    have a1 : h.use d.isCached = .ok () := by
      rw [e1]; exact use_ok (k := .array) (by rw [hl]; simp)
    have a2 : h.use d.cachedTensors = .ok () := by
      rw [e2]; exact use_ok (k := .array) (by rw [hl]; simp)
    have a3 : h.use d.oldW = .ok () := by
      rw [e3]; exact use_ok (k := .array) (by rw [hl]; simp)
    simp only [a1, a2, a3]
    exact ⟨d, h, rfl, hi⟩
  | dtlr =>
    rw [if_neg (by decide)] at hr
    obtain ⟨e1, e2, m, hn, hl, hc⟩ := hr
    simp only
    rcases hc with ⟨hm, c1, c2, hf⟩ | ⟨-, hm, c1, c2, hf⟩ | ⟨-, hm, c1, c2⟩
    · simp only [hf, c1, if_true, Heap.alloc]
      refine ⟨_, _, rfl, ⟨rfl, hi.size, hi.rank, hi.V, hi.W, hi.opt, hi.oV, hi.oW, hi.auto, ?_⟩⟩
      rw [if_neg (by decide)]
      refine ⟨e1, e2, 1, by simp only; omega, ?_, Or.inr (Or.inl ⟨rfl, rfl, by simp only; rw [hn, hm], c2, rfl⟩)⟩
      simp only [hl, hn, hm]
      funext x
      simp only [Function.update_apply]
      split_ifs <;> first | rfl | omega
    · simp only [hf, c2, Bool.false_eq_true, if_false, Heap.alloc]
      refine ⟨_, _, rfl, ⟨rfl, hi.size, hi.rank, hi.V, hi.W, hi.opt, hi.oV, hi.oW, hi.auto, ?_⟩⟩
      rw [if_neg (by decide)]
      refine ⟨e1, e2, 2, by simp only; omega, ?_, Or.inr (Or.inr ⟨rfl, rfl, c1, by simp only; rw [hn, hm]⟩)⟩
      simp only [hl, hn, hm]
      funext x
      simp only [Function.update_apply]
      split_ifs <;> first | rfl | omega
    · have a1 : h.use (some (h0.next + 4)) = .ok () := use_ok (k := .single) (by
        rw [hl]; simp only; split_ifs <;> first | rfl | omega)
      have a2 : h.use (some (h0.next + 5)) = .ok () := use_ok (k := .single) (by
        rw [hl]; simp only; split_ifs <;> first | rfl | omega)
      cases hf : d.first with
      | true =>
        simp only [if_true, c1, a1]
        refine ⟨_, _, rfl, ⟨rfl, hi.size, hi.rank, hi.V, hi.W, hi.opt, hi.oV, hi.oW, hi.auto, ?_⟩⟩
        rw [if_neg (by decide)]
        exact ⟨e1, e2, m, hn, hl, Or.inr (Or.inr ⟨rfl, hm, rfl, c2⟩)⟩
      | false =>
        simp only [Bool.false_eq_true, if_false, c2, a2]
        refine ⟨_, _, rfl, ⟨rfl, hi.size, hi.rank, hi.V, hi.W, hi.opt, hi.oV, hi.oW, hi.auto, ?_⟩⟩
        rw [if_neg (by decide)]
        exact ⟨e1, e2, m, hn, hl, Or.inr (Or.inr ⟨rfl, hm, c1, rfl⟩)⟩

theorem Inited.als {kind : OptKind} {h0 : Heap} {v w : ℕ} (ha : ArgsAt h0 v w) (n : ℕ) {h : Heap} {d : CpdObj}
    (hi : Inited kind h0 v w d h) : ∃ d' h', cpdAlsAcc n d h = .ok (d', h') ∧ Inited kind h0 v w d' h' := by
  induction n generalizing d h with
  | zero =>
    obtain ⟨u1, u2, u3, -⟩ := hi.uses ha
    exact ⟨d, h, by simp [cpdAlsAcc, u1, u2, u3, bind, Except.bind, pure, Except.pure], hi⟩
  | succ n ih =>
    obtain ⟨u1, u2, u3, -⟩ := hi.uses ha
    obtain ⟨d1, h1, e1, i1⟩ := hi.step ha
    obtain ⟨d2, h2, e2, i2⟩ := ih i1
    exact ⟨d2, h2, by simp [cpdAlsAcc, u1, u2, u3, bind, Except.bind, e1, e2], i2⟩

theorem Inited.calls {kind : OptKind} {h0 : Heap} {v w : ℕ} (ha : ArgsAt h0 v w) (l : List CpdCall) (hl : ∀ c ∈ l, c.isAls)
    {h : Heap} {d : CpdObj} (hi : Inited kind h0 v w d h) :
    ∃ d' h', cpdCalls d h l = .ok (d', h') ∧ Inited kind h0 v w d' h' := by
  induction l generalizing d h with
  | nil => exact ⟨d, h, rfl, hi⟩
  | cons c l ih =>
    have hc := hl c (by simp)
    rw [cpdCalls_cons]
    have : ∃ d' h', cpdCall d h c = .ok (d', h') ∧ Inited kind h0 v w d' h' := by
      match c, hc with
      | .als false _, _ => exact ⟨d, h, rfl, hi⟩
      | .als true n, _ => exact hi.als ha n
    obtain ⟨d1, h1, e1, i1⟩ := this
    rw [e1]
    exact ih (fun c hc => hl c (by simp [hc])) i1

theorem free_ok {h : Heap} {k : BlockKind} {p : ℕ} (hp : h.live p = some k) :
    h.free k (some p) = .ok ⟨Function.update h.live p none, h.auto, h.next⟩ := by
  simp [Heap.free, hp]

theorem Inited.destroy {kind : OptKind} {h0 : Heap} (hh : h0.Ok) {v w : ℕ} (ha : ArgsAt h0 v w) {h : Heap} {d : CpdObj}
    (hi : Inited kind h0 v w d h) :
    ∃ h', cpdDestroy d h = .ok h' ∧
      h'.live = fun p => if p = w then none else
        if kind = .msdtlr ∧ p = h0.next + 5 then some .array else h0.live p := by
  have hr := hi.rest
  have hwn := ha.wn
  have hw := ha.uw
  have f0 : ∀ x, h0.next ≤ x → h0.live x = none := hh.fresh
  unfold cpdDestroy
  rw [hi.W, hi.size, hi.rank, hi.opt]
  by_cases hk : kind = .msdtlr
  · rw [if_pos hk] at hr
    obtain ⟨e1, e2, e3, e4, e5, hn, hl⟩ := hr
    unfold optDestroy
    rw [hi.kind_eq]
    subst hk
    simp only [e1, e2, e4, bind, Except.bind]
    rw [free_ok (h := h) (by rw [hl]; simp)]
    simp only
    rw [free_ok (by simp only [Function.update_apply, hl]; split_ifs <;> first | rfl | omega)]
    simp only
    rw [free_ok (by simp only [Function.update_apply, hl]; split_ifs <;> first | rfl | omega)]
    simp only
    rw [free_ok (by simp only [Function.update_apply, hl]; split_ifs <;> first | rfl | omega)]
    simp only
    rw [free_ok (by simp only [Function.update_apply, hl]; split_ifs <;> first | exact hw | rfl | omega)]
    simp only
    rw [free_ok (by simp only [Function.update_apply, hl]; split_ifs <;> first | rfl | omega)]
    simp only
    rw [free_ok (by simp only [Function.update_apply, hl]; split_ifs <;> first | rfl | omega)]
    refine ⟨_, rfl, ?_⟩
    funext x
    simp only [Function.update_apply, hl, true_and]
    split_ifs <;> first | rfl | omega | (rw [f0 x (by omega)])
  · rw [if_neg hk] at hr
    obtain ⟨e1, e2, m, hn, hl, hc⟩ := hr
    have mid : ∃ h1 : Heap, optDestroy d ⟨Function.update h.live (h0.next + 3) none, h.auto, h.next⟩ = Except.ok h1 ∧
        h1.live = fun p => if p = h0.next + 2 then some .single else
          if h0.next ≤ p ∧ p < h0.next + 3 then some .array else h0.live p := by
      unfold optDestroy
      rw [hi.kind_eq]
      rcases hc with ⟨hm, c1, c2, -⟩ | ⟨hd, hm, c1, c2, -⟩ | ⟨hd, hm, c1, c2⟩
      · refine ⟨⟨Function.update h.live (h0.next + 3) none, h.auto, h.next⟩, ?_, ?_⟩
        · cases kind <;> first | rfl | exact absurd rfl hk | simp [c1, c2, Heap.free, bind, Except.bind]
        · funext x
          simp only [Function.update_apply, hl]
          split_ifs <;> first | rfl | omega | (rw [f0 x (by omega)])
      · subst hd
        simp only [c1, c2, bind, Except.bind]
        rw [free_ok (by simp only [Function.update_apply, hl]; split_ifs <;> first | rfl | omega)]
        refine ⟨_, rfl, ?_⟩
        funext x
        simp only [Function.update_apply, hl]
        split_ifs <;> first | rfl | omega | (rw [f0 x (by omega)])
      · subst hd
        simp only [c1, c2, bind, Except.bind]
        rw [free_ok (by simp only [Function.update_apply, hl]; split_ifs <;> first | rfl | omega)]
        simp only
        rw [free_ok (by simp only [Function.update_apply, hl]; split_ifs <;> first | rfl | omega)]
        refine ⟨_, rfl, ?_⟩
        funext x
        simp only [Function.update_apply, hl]
        split_ifs <;> first | rfl | omega | (rw [f0 x (by omega)])
    obtain ⟨h1, em, hl1⟩ := mid
    simp only [e1, bind, Except.bind]
    rw [free_ok (h := h) (by rw [hl]; simp)]
    simp only
    rw [em]
    simp only
    rw [free_ok (h := h1) (by rw [hl1]; simp)]
    simp only
    rw [free_ok (by simp only [Function.update_apply, hl1]; split_ifs <;> first | exact hw | rfl | omega)]
    simp only
    rw [free_ok (by simp only [Function.update_apply, hl1]; split_ifs <;> first | rfl | omega)]
    simp only
    rw [free_ok (by simp only [Function.update_apply, hl1]; split_ifs <;> first | rfl | omega)]
    refine ⟨_, rfl, ?_⟩
    funext x
    simp only [Function.update_apply, hl1, hk, false_and, if_false]
    split_ifs <;> first | rfl | omega | (rw [f0 x (by omega)])

end Model
