import Verif.Proofs.Ownership

/-! # C45: ownership -/

namespace Properties

open Model

/-- Histories of an object with one `Init`, nothing but `als` after it, and no `als` that does anything before it. -/
def InitOnce (calls : List CpdCall) : Prop :=
  ∃ pre v w post, calls = pre ++ .init v w :: post ∧ (∀ c ∈ pre, c.idle) ∧ ∀ c ∈ post, c.isAls

theorem argsAt_of {h : Heap} (hh : h.Ok) {p q : ℕ} (ha : InitArgs h (some p) (some q)) : ArgsAt h p q := by
  obtain ⟨p', q', h1, h2, hp, hq⟩ := ha
  cases h1
  cases h2
  refine ⟨hp, hq, ?_, ?_⟩
  · rcases hp with hp | hp
    · by_contra hc
      rw [hh.fresh p (by omega)] at hp; cases hp
    · exact (hh.auto p hp).2
  · by_contra hc
    rw [hh.fresh q (by omega)] at hq; cases hq

theorem life_once {kind : OptKind} {h : Heap} (hh : h.Ok) {pre post : List CpdCall} {p q : ℕ}
    (hpre : ∀ c ∈ pre, c.idle) (hpost : ∀ c ∈ post, c.isAls) (ha : InitArgs h (some p) (some q)) :
    ∃ d h1 h', cpdCalls (cpdConstruct kind h).1 (cpdConstruct kind h).2 (pre ++ .init (some p) (some q) :: post) = .ok (d, h1) ∧
      Inited kind h p q d h1 ∧ cpdDestroy d h1 = .ok h' ∧
      h'.live = fun x => if x = q then none else if kind = .msdtlr ∧ x = h.next + 5 then some .array else h.live x := by
  obtain ⟨p', q', d, h1, e1, e2, -, -, ei, hi⟩ := inited (kind := kind) hh ha
  cases e1
  cases e2
  have aa := argsAt_of hh ha
  obtain ⟨d2, h2, ec, i2⟩ := hi.calls aa post hpost
  obtain ⟨h', ed, hl⟩ := i2.destroy hh aa
  refine ⟨d2, h2, h', ?_, i2, ed, hl⟩
  rw [cpdCalls_append, cpdCalls_idle hpre]
  simp only [Except.bind]
  rw [cpdCalls_cons]
  simp only [cpdCall, ei, Except.bind, ec]

/-- **C45**. One `Init`: the object's life is free of memory errors; afterwards the factor array passed to `Init` has been
freed, the tensor has not, and everything else is as before -- no block allocated by the object is left over, except the
array `old_W` of the MSDT low-rank optimizer, which leaks. -/
theorem C45_one_init {kind : OptKind} {h : Heap} (hh : h.Ok) {pre post : List CpdCall} {v w : ℕ}
    (hpre : ∀ c ∈ pre, c.idle) (hpost : ∀ c ∈ post, c.isAls) (ha : InitArgs h (some v) (some w)) :
    ∃ h', cpdLife kind h (pre ++ .init (some v) (some w) :: post) = .ok h' ∧ h'.live w = none ∧
      ((h.live v = some .single) → h'.live v = some .single) ∧
      (kind ≠ .msdtlr → ∀ x, x ≠ w → h'.live x = h.live x) ∧
      (kind = .msdtlr → ∃ leak, h.live leak = none ∧ h'.live leak = some .array ∧
        ∀ x, x ≠ w → x ≠ leak → h'.live x = h.live x) := by
  obtain ⟨d, h1, h', ec, -, ed, hl⟩ := life_once (kind := kind) hh hpre hpost ha
  have aa := argsAt_of hh ha
  have hwn := aa.wn
  have hvn := aa.vn
  refine ⟨h', ?_, by rw [hl]; simp, ?_, ?_, ?_⟩
  · unfold cpdLife
    simp only [bind, Except.bind]
    rw [ec]
    simp only
    exact ed
  · intro hv
    rw [hl]
    have : v ≠ w := by
      rintro rfl
      rw [aa.uw] at hv
      cases hv
    simp only
    rw [if_neg this, if_neg (by omega)]
    exact hv
  · intro hk x hx
    rw [hl]
    simp [hk, hx]
  · intro hk
    refine ⟨h.next + 5, hh.fresh _ (by omega), ?_, ?_⟩
    · rw [hl]
      simp only
      rw [if_neg (by omega), if_pos ⟨hk, trivial⟩]
    · intro x h1 h2
      rw [hl]
      simp [h1, h2]

/-- **C45**. Without `Init` the life is free of memory errors iff no `als` enters its loop. -/
theorem C45_no_init {kind : OptKind} {h : Heap} (hh : h.Ok) {calls : List CpdCall} (hc : ∀ c ∈ calls, c.idle) :
    ∃ h', cpdLife kind h calls = .ok h' ∧ (kind ≠ .msdtlr → h'.live = h.live) := by
  unfold cpdLife
  simp only [bind, Except.bind]
  rw [cpdCalls_idle hc]
  simp only
  have f0 := hh.fresh
  by_cases hk : kind = .msdtlr
  · subst hk
    unfold cpdDestroy optDestroy cpdConstruct
    simp only [if_true, Heap.alloc, bind, Except.bind, Heap.free]
    rw [if_pos (by simp only [Function.update_apply]; split_ifs <;> first | rfl | omega)]
    simp only
    rw [if_pos (by simp only [Function.update_apply]; split_ifs <;> first | rfl | omega)]
    simp only
    rw [if_pos (by simp only [Function.update_apply]; split_ifs <;> first | rfl | omega)]
    simp only
    rw [if_pos (by simp only [Function.update_apply]; split_ifs <;> first | rfl | omega)]
    simp only
    rw [if_pos (by simp only [Function.update_apply]; split_ifs <;> first | rfl | omega)]
    exact ⟨_, rfl, fun h => absurd rfl h⟩
  · have hd : ∀ (d : CpdObj) (h : Heap), d.kind = kind → d.cached1 = none → d.cached2 = none → optDestroy d h = .ok h := by
      intro d h e1 e2 e3
      unfold optDestroy
      rw [e1, e2, e3]
      cases kind <;> first | rfl | exact absurd rfl hk
    unfold cpdDestroy cpdConstruct
    simp only [if_neg hk, Heap.alloc, bind, Except.bind, Heap.free]
    rw [hd _ _ rfl rfl rfl]
    simp only
    rw [if_pos (by simp only [Function.update_apply]; split_ifs <;> first | rfl | omega)]
    simp only
    rw [if_pos (by simp only [Function.update_apply]; split_ifs <;> first | rfl | omega)]
    simp only
    rw [if_pos (by simp only [Function.update_apply]; split_ifs <;> first | rfl | omega)]
    refine ⟨_, rfl, fun _ => ?_⟩
    funext x
    simp only [Function.update_apply]
    split_ifs <;> first | rfl | (rw [f0 x (by omega)])

theorem calls_ub_of_second {kind : OptKind} {h : Heap} (hh : h.Ok) {pre mid rest : List CpdCall} {v w : ℕ} {v' w' : Option ℕ}
    (hpre : ∀ c ∈ pre, c.idle) (hmid : ∀ c ∈ mid, c.isAls) (ha : InitArgs h (some v) (some w)) :
    cpdLife kind h (pre ++ .init (some v) (some w) :: (mid ++ .init v' w' :: rest)) = .error .ub := by
  obtain ⟨d, h1, h', ec, hi, -, -⟩ := life_once (kind := kind) hh hpre hmid ha
  have aa := argsAt_of hh ha
  have hn : v < h1.next := by
    have hr := hi.rest
    have := aa.vn
    by_cases hk : kind = .msdtlr
    · rw [if_pos hk] at hr
      omega
    · rw [if_neg hk] at hr
      obtain ⟨-, -, m, hm, -⟩ := hr
      omega
  unfold cpdLife
  simp only [bind, Except.bind]
  have e : pre ++ CpdCall.init (some v) (some w) :: (mid ++ CpdCall.init v' w' :: rest) =
      (pre ++ CpdCall.init (some v) (some w) :: mid) ++ CpdCall.init v' w' :: rest := by simp
  rw [e, cpdCalls_append, ec]
  simp only [Except.bind]
  rw [cpdCalls_cons]
  simp only [cpdCall, cpdInit_second hi.V hi.oV hn, Except.bind]

/-- **C45**, violated part. Every history with a second `Init` is undefined behaviour, whatever tensors and factors are
passed to it. -/
theorem C45_second_init {kind : OptKind} {h : Heap} (hh : h.Ok) {pre mid rest : List CpdCall} {v w : ℕ} {v' w' : Option ℕ}
    (hpre : ∀ c ∈ pre, c.idle) (hmid : ∀ c ∈ mid, c.isAls) (ha : InitArgs h (some v) (some w)) :
    cpdLife kind h (pre ++ .init (some v) (some w) :: (mid ++ .init v' w' :: rest)) = .error .ub :=
  calls_ub_of_second hh hpre hmid ha

/-- **C45**, why. If the tensor of the first `Init` is a heap block, both halves of a second `Init` -- the decomposition's and the
optimizer's -- free the old tensor and the old factor array (each alone would succeed). -/
theorem C45_both_free {kind : OptKind} {h : Heap} (hh : h.Ok) {pre mid : List CpdCall} {v w v' w' : ℕ}
    (hpre : ∀ c ∈ pre, c.idle) (hmid : ∀ c ∈ mid, c.isAls) (ha : InitArgs h (some v) (some w)) (hv : h.live v = some .single)
    (ha' : InitArgs h (some v') (some w')) (hw : w' ≠ w) :
    ∃ d h1, cpdCalls (cpdConstruct kind h).1 (cpdConstruct kind h).2 (pre ++ .init (some v) (some w) :: mid) = .ok (d, h1) ∧
      h1.live v = some .single ∧ h1.live w = some .array ∧
      (∃ d2 h2, decompInit d h1 (some v') (some w') = .ok (d2, h2) ∧ h2.live v = none ∧ h2.live w = none) ∧
      ∀ g, ∃ d2 h2, configure d h1 (some v') (some w') g = .ok (d2, h2) ∧ h2.live v = none ∧ h2.live w = none := by
  obtain ⟨d, h1, h', ec, hi, -, -⟩ := life_once (kind := kind) hh hpre hmid ha
  have aa := argsAt_of hh ha
  have aa' := argsAt_of hh ha'
  obtain ⟨u1, u2, u3, u4, u5, u6, u7⟩ := hi.uses aa
  have hr := hi.rest
  obtain ⟨uv, uw, vn, wn⟩ := aa
  obtain ⟨uv', uw', vn', wn'⟩ := aa'
  have hvw : v ≠ w := by rintro rfl; rw [hv] at uw; cases uw
  have hvw' : w' ≠ v := by rintro rfl; rw [hv] at uw'; cases uw'
  have old : ∀ p, p < h.next → h1.live p = h.live p := by
    intro p hp
    by_cases hk : kind = .msdtlr
    · rw [if_pos hk] at hr
      obtain ⟨-, -, -, -, -, -, hl⟩ := hr
      rw [hl]
      simp only
      split_ifs <;> first | rfl | omega
    · rw [if_neg hk] at hr
      obtain ⟨-, -, m, -, hl, -⟩ := hr
      rw [hl]
      simp only
      split_ifs <;> first | rfl | omega
  have sr : h1.use d.size = .ok () ∧ h1.use d.rank = .ok () ∧ ∃ g, h.next ≤ g ∧ d.oGrad = some g ∧ h1.live g = some .array := by
    rw [hi.size, hi.rank]
    by_cases hk : kind = .msdtlr
    · rw [if_pos hk] at hr
      obtain ⟨-, -, -, -, e2, -, hl⟩ := hr
      refine ⟨use_ok (k := .array) ?_, use_ok (k := .array) ?_, _, ?_, e2, ?_⟩
      · rw [hl]; simp only; split_ifs <;> first | rfl | omega
      · rw [hl]; simp only; split_ifs <;> first | rfl | omega
      · omega
      · rw [hl]; simp only; split_ifs <;> first | rfl | omega
    · rw [if_neg hk] at hr
      obtain ⟨-, e2, m, -, hl, -⟩ := hr
      refine ⟨use_ok (k := .array) ?_, use_ok (k := .array) ?_, _, ?_, e2, ?_⟩
      · rw [hl]; simp only; split_ifs <;> first | rfl | omega
      · rw [hl]; simp only; split_ifs <;> first | rfl | omega
      · omega
      · rw [hl]; simp only; split_ifs <;> first | rfl | omega
  obtain ⟨us, ur, g0, gn, eg, lg⟩ := sr
  have lv : h1.live v = some .single := (old v vn).trans hv
  have lw : h1.live w = some .array := (old w wn).trans uw
  have lw' : h1.live w' = some .array := (old w' wn').trans uw'
  have uv1 : h1.use (some v') = .ok () := by
    rcases uv' with e | e
    · exact use_ok ((old v' vn').trans e)
    · simp [Heap.use, hi.auto, e]
  refine ⟨d, h1, ec, lv, lw, ?_, fun g => ?_⟩
  · unfold decompInit
    simp only [bind, Except.bind, pure, Except.pure]
    rw [uv1]; simp only
    rw [us]; simp only
    rw [use_ok lw']; simp only
    rw [ur]; simp only
    rw [hi.V, hi.W, free_ok lv]; simp only [ne_eq, reduceCtorEq, not_false_eq_true, if_true]
    rw [free_ok (k := .array) (p := w) (by simp only; rw [Function.update_of_ne hvw.symm]; exact lw)]
    refine ⟨_, _, rfl, ?_, ?_⟩
    · simp [Function.update_of_ne hvw]
    · simp
  · unfold configure
    simp only [bind, Except.bind, pure, Except.pure]
    rw [uv1]; simp only
    rw [use_ok lw']; simp only
    rw [hi.oV, hi.oW, eg, free_ok lv]; simp only
    rw [free_ok (k := .array) (p := w) (by simp only; rw [Function.update_of_ne hvw.symm]; exact lw)]; simp only
    rw [free_ok (k := .array) (p := g0) (by
      simp only; rw [Function.update_of_ne (by omega), Function.update_of_ne (by omega)]; exact lg)]; simp only
    rw [use_ok (k := .array) (p := w') (by
      simp only; rw [Function.update_of_ne (by omega), Function.update_of_ne hw, Function.update_of_ne hvw']; exact lw')]
    refine ⟨_, _, rfl, ?_, ?_⟩
    · simp only
      rw [Function.update_of_ne (by omega), Function.update_of_ne hvw, Function.update_self]
    · simp only
      rw [Function.update_of_ne (by omega), Function.update_self]

theorem split_first (P : CpdCall → Prop) [DecidablePred P] (l : List CpdCall) :
    (∀ c ∈ l, P c) ∨ ∃ pre c post, l = pre ++ c :: post ∧ (∀ c ∈ pre, P c) ∧ ¬ P c := by
  induction l with
  | nil => left; simp
  | cons a l ih =>
    by_cases ha : P a
    · rcases ih with ih | ⟨pre, c, post, e, h1, h2⟩
      · left
        intro c hc
        rcases List.mem_cons.mp hc with rfl | hc
        · exact ha
        · exact ih c hc
      · right
        refine ⟨a :: pre, c, post, by rw [e]; rfl, ?_, h2⟩
        intro c hc
        rcases List.mem_cons.mp hc with rfl | hc
        · exact ha
        · exact h1 c hc
    · right
      exact ⟨[], a, l, rfl, by simp, ha⟩

open Classical in
/-- **C45**. Exactly which histories are free of memory errors: those without an effective call, and those in which `Init` is
called once, before every `als` that enters its loop. All others are undefined behaviour. -/
theorem C45_iff {kind : OptKind} {h : Heap} (hh : h.Ok) {calls : List CpdCall}
    (ha : ∀ v w, CpdCall.init v w ∈ calls → InitArgs h v w) :
    ((∃ h', cpdLife kind h calls = .ok h') ↔ (∀ c ∈ calls, c.idle) ∨ InitOnce calls) ∧
    ((∃ h', cpdLife kind h calls = .ok h') ∨ cpdLife kind h calls = .error .ub) := by
  have key : (((∀ c ∈ calls, c.idle) ∨ InitOnce calls) → ∃ h', cpdLife kind h calls = .ok h') ∧
      (((∀ c ∈ calls, c.idle) ∨ InitOnce calls) ∨ cpdLife kind h calls = .error .ub) := by
    constructor
    · rintro (hc | ⟨pre, v, w, post, rfl, h1, h2⟩)
      · obtain ⟨h', e, -⟩ := C45_no_init (kind := kind) hh hc
        exact ⟨h', e⟩
      · have hi := ha v w (by simp)
        obtain ⟨p, q, rfl, rfl, -, -⟩ := id hi
        obtain ⟨h', e, -⟩ := C45_one_init (kind := kind) hh h1 h2 hi
        exact ⟨h', e⟩
    · rcases split_first CpdCall.idle calls with hc | ⟨pre, c, post, e, h1, h2⟩
      · exact Or.inl (Or.inl hc)
      · match c, h2 with
        | .als true n, _ =>
          right
          unfold cpdLife
          simp only [bind, Except.bind]
          rw [e, cpdCalls_append, cpdCalls_idle h1]
          simp only [Except.bind]
          rw [cpdCalls_cons]
          simp only [cpdCall, cpdAlsAcc_blank (blank_construct kind h), Except.bind]
        | .als false n, h2 => exact absurd trivial h2
        | .init v w, _ =>
          have hi := ha v w (by rw [e]; simp)
          obtain ⟨p, q, rfl, rfl, -, -⟩ := id hi
          rcases split_first CpdCall.isAls post with hc | ⟨mid, c, rest, e2, h3, h4⟩
          · exact Or.inl (Or.inr ⟨pre, _, _, post, e, h1, hc⟩)
          · match c, h4 with
            | .als b n, h4 => exact absurd trivial h4
            | .init v' w', _ =>
              right
              rw [e, e2]
              exact calls_ub_of_second hh h1 h3 hi
  refine ⟨⟨?_, key.1⟩, ?_⟩
  · rintro ⟨h', e⟩
    rcases key.2 with h1 | h1
    · exact h1
    · rw [h1] at e; cases e
  · rcases key.2 with h1 | h1
    · exact Or.inl (key.1 h1)
    · exact Or.inr h1

/-- **C45**, violated part. Objects must not be copied: the implicit copy shares all pointers, so destroying copy and original
frees the same arrays twice -- for every history. -/
theorem C45_copy {kind : OptKind} {h : Heap} (hh : h.Ok) {pre post : List CpdCall} {v w : ℕ}
    (hpre : ∀ c ∈ pre, c.idle) (hpost : ∀ c ∈ post, c.isAls) (ha : InitArgs h (some v) (some w)) :
    cpdCopyLife kind h (pre ++ .init (some v) (some w) :: post) = .error .ub := by
  obtain ⟨d, h1, h', ec, hi, ed, hl⟩ := life_once (kind := kind) hh hpre hpost ha
  have aa := argsAt_of hh ha
  have hwn := aa.wn
  unfold cpdCopyLife
  simp only [bind, Except.bind]
  rw [ec]
  simp only
  rw [ed]
  simp only
  have hg : ∃ g, d.gradW = some g ∧ h'.live g = none := by
    have hr := hi.rest
    by_cases hk : kind = .msdtlr
    · rw [if_pos hk] at hr
      refine ⟨_, hr.2.2.2.1, ?_⟩
      rw [hl]
      simp only
      rw [if_neg (by omega), if_neg (by omega)]
      exact hh.fresh _ (by omega)
    · rw [if_neg hk] at hr
      refine ⟨_, hr.1, ?_⟩
      rw [hl]
      simp only
      rw [if_neg (by omega), if_neg (by tauto)]
      exact hh.fresh _ (by omega)
  obtain ⟨g, e1, e2⟩ := hg
  unfold cpdDestroy
  simp only [e1, free_dead e2, bind, Except.bind]

/-! ## Non-vacuity: run.cxx has `V` on the stack (address 0) and `W` from `new[]` (address 1) -/

/-- The heap of run.cxx before the decomposition object is built. -/
def exHeap : Heap := ⟨fun p => if p = 1 then some .array else none, fun p => p == 0, 2⟩

example : exHeap.Ok ∧ InitArgs exHeap (some 0) (some 1) := by
  refine ⟨⟨?_, ?_⟩, 0, 1, rfl, rfl, Or.inr rfl, rfl⟩
  · intro p hp
    have hp' : 2 ≤ p := hp
    simp only [exHeap]
    rw [if_neg (by omega)]
  · intro p hp
    have : p = 0 := by simpa [exHeap] using hp
    subst this
    simp [exHeap]

example : InitOnce [.als false 0, .init (some 0) (some 1), .als true 7, .als true 2] :=
  ⟨[.als false 0], _, _, [.als true 7, .als true 2], rfl, by simp [CpdCall.idle], by simp [CpdCall.isAls]⟩

/-- A heap with two tensors (0, 2) and two factor arrays (1, 3). -/
def exHeap2 : Heap := ⟨fun p => if p = 0 ∨ p = 2 then some .single else if p = 1 ∨ p = 3 then some .array else none, fun _ => false, 4⟩

example : exHeap2.Ok ∧ InitArgs exHeap2 (some 0) (some 1) ∧ exHeap2.live 0 = some .single ∧ InitArgs exHeap2 (some 2) (some 3) := by
  refine ⟨⟨?_, fun p hp => by cases hp⟩, ⟨0, 1, rfl, rfl, Or.inl rfl, rfl⟩, rfl, ⟨2, 3, rfl, rfl, Or.inl rfl, rfl⟩⟩
  intro p hp
  have hp' : 4 ≤ p := hp
  simp only [exHeap2]
  rw [if_neg (by omega), if_neg (by omega)]

end Properties
