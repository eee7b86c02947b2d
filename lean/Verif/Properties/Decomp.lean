import Verif.Model.Decomp
import Verif.Proofs.Ownership

/-! # C78: an object of the base class `Decomposition` -/

namespace Properties

open Model

/-- The tensors passed to `Init`, in order. -/
def decVs (calls : List DecCall) : List ℕ := calls.filterMap fun c => match c with | .init v _ => v | _ => none

/-- The factor arrays passed to `Init`, in order. -/
def decWs (calls : List DecCall) : List ℕ := calls.filterMap fun c => match c with | .init _ w => w | _ => none

/-- The pair of arguments is what `Init` expects: a tensor with `n` modes of length `s` and an array of at least `n` matrices with `r`
columns, allocated by `new[]`; the tensor was allocated by `new` or is an automatic variable. -/
structure DecArgs (S : Shapes) (n s r : ℕ) (h : Heap) (p q : ℕ) : Prop where
  v : h.live p = some .single ∨ h.auto p = true
  w : h.live q = some .array
  lens : S.lens p = List.replicate n s
  cols : n ≤ (S.cols q).length ∧ ∀ i < n, (S.cols q)[i]? = some r

/-- A sensible history: proper arguments, no tensor and no factor array is passed twice, tensors that are replaced by a later
`Init` come from `new`, nothing is printed before the first `Init`, and only existing factors are printed. -/
structure DecUse (S : Shapes) (n s r : ℕ) (h : Heap) (calls : List DecCall) : Prop where
  args : ∀ v w, .init v w ∈ calls → ∃ p q, v = some p ∧ w = some q ∧ DecArgs S n s r h p q
  vs : (decVs calls).Nodup
  ws : (decWs calls).Nodup
  heap : ∀ p ∈ (decVs calls).dropLast, h.live p = some .single
  prints : ∀ pre c post, calls = pre ++ c :: post → (c = .printV ∨ ∃ i, c = .printW i) → decVs pre ≠ []
  index : ∀ i, .printW i ∈ calls → i < n

/-- The state after the calls `calls` of a sensible history on the heap `h0`. -/
structure DecSt (n s r : ℕ) (h0 : Heap) (calls : List DecCall) (d : DecObj) (h : Heap) : Prop where
  order : d.order = n
  s_eq : d.s = s
  r_eq : d.r = r
  size : d.size = some h0.next
  rank : d.rank = some (h0.next + 1)
  V : d.V = (decVs calls).getLast?
  W : d.W = (decWs calls).getLast?
  auto : h.auto = h0.auto
  live : ∀ p, h.live p = if p = h0.next ∨ p = h0.next + 1 then some .array
    else if p ∈ (decVs calls).dropLast ∨ p ∈ (decWs calls).dropLast then none else h0.live p

theorem decVs_append (a b : List DecCall) : decVs (a ++ b) = decVs a ++ decVs b := by simp [decVs]
theorem decWs_append (a b : List DecCall) : decWs (a ++ b) = decWs a ++ decWs b := by simp [decWs]

theorem forM_ok {α : Type} {l : List α} {f : α → Except Fault PUnit} (h : ∀ a ∈ l, f a = .ok ⟨⟩) : l.forM f = .ok ⟨⟩ := by
  induction l with
  | nil => rfl
  | cons a l ih =>
    have h1 := h a (by simp)
    have h2 := ih fun b hb => h b (by simp [hb])
    simp only [List.forM, bind, Except.bind, h1]
    exact h2

theorem dec_fresh {h : Heap} (hh : h.Ok) {p : ℕ} {k : BlockKind} (hp : h.live p = some k) : p < h.next := by
  by_contra hc
  rw [hh.fresh p (by omega)] at hp
  cases hp

theorem mem_decVs {calls : List DecCall} {p : ℕ} (h : p ∈ decVs calls) : ∃ w, .init (some p) w ∈ calls := by
  unfold decVs at h
  rw [List.mem_filterMap] at h
  obtain ⟨c, hc, he⟩ := h
  cases c with
  | init v w => simp only at he; subst he; exact ⟨w, hc⟩
  | printV => cases he
  | printW i => cases he

theorem mem_decWs {calls : List DecCall} {p : ℕ} (h : p ∈ decWs calls) : ∃ v, .init v (some p) ∈ calls := by
  unfold decWs at h
  rw [List.mem_filterMap] at h
  obtain ⟨c, hc, he⟩ := h
  cases c with
  | init v w => simp only at he; subst he; exact ⟨v, hc⟩
  | printV => cases he
  | printW i => cases he

section

variable {S : Shapes} {n s r : ℕ} {h : Heap}

theorem DecUse.prefix {pre post : List DecCall} (hu : DecUse S n s r h (pre ++ post)) : DecUse S n s r h pre where
  args v w hm := hu.args v w (by simp [hm])
  vs := by have := hu.vs; rw [decVs_append] at this; exact this.of_append_left
  ws := by have := hu.ws; rw [decWs_append] at this; exact this.of_append_left
  heap p hp := by
    refine hu.heap p ?_
    rw [decVs_append]
    cases hb : decVs post with
    | nil => simpa using hp
    | cons x l =>
      rw [List.dropLast_append_of_ne_nil (by simp)]
      exact List.mem_append_left _ (List.dropLast_subset _ hp)
  prints a c b hab hc := hu.prints a c (b ++ post) (by rw [hab]; simp) hc
  index i hi := hu.index i (by simp [hi])

theorem decUse_v {calls : List DecCall} (hu : DecUse S n s r h calls) {p : ℕ} (hp : p ∈ decVs calls) :
    h.live p = some .single ∨ h.auto p = true := by
  obtain ⟨w, hw⟩ := mem_decVs hp
  obtain ⟨p', q', e1, e2, ha⟩ := hu.args _ _ hw
  cases e1
  exact ha.v

theorem decUse_w {calls : List DecCall} (hu : DecUse S n s r h calls) {q : ℕ} (hq : q ∈ decWs calls) :
    h.live q = some .array ∧ n ≤ (S.cols q).length := by
  obtain ⟨v, hv⟩ := mem_decWs hq
  obtain ⟨p', q', e1, e2, ha⟩ := hu.args _ _ hv
  cases e2
  exact ⟨ha.w, ha.cols.1⟩

theorem decUse_both {calls : List DecCall} (hu : DecUse S n s r h calls) : decVs calls ≠ [] ↔ decWs calls ≠ [] := by
  constructor
  · intro hne
    obtain ⟨p, hp⟩ := List.exists_mem_of_ne_nil _ hne
    obtain ⟨w, hw⟩ := mem_decVs hp
    obtain ⟨p', q', -, e2, -⟩ := hu.args _ _ hw
    subst e2
    exact List.ne_nil_of_mem (a := q') (by unfold decWs; rw [List.mem_filterMap]; exact ⟨_, hw, rfl⟩)
  · intro hne
    obtain ⟨p, hp⟩ := List.exists_mem_of_ne_nil _ hne
    obtain ⟨w, hw⟩ := mem_decWs hp
    obtain ⟨p', q', e2, -, -⟩ := hu.args _ _ hw
    subst e2
    exact List.ne_nil_of_mem (a := p') (by unfold decVs; rw [List.mem_filterMap]; exact ⟨_, hw, rfl⟩)

theorem dropLast_mem {α : Type} {l : List α} (hn : l.Nodup) {a : α} (ha : l.getLast? = some a) : a ∉ l.dropLast := by
  obtain ⟨l', rfl⟩ : ∃ l', l = l' ++ [a] := by
    rw [List.getLast?_eq_some_iff] at ha
    exact ha
  simp only [List.dropLast_concat]
  intro hm
  rw [List.nodup_append] at hn
  exact hn.2.2 a hm a (by simp) rfl

/-- The current tensor and the current factor array are alive. -/
theorem DecSt.cur (hh : h.Ok) {calls : List DecCall} {d : DecObj} {h1 : Heap} (hu : DecUse S n s r h calls)
    (st : DecSt n s r h calls d h1) {p : ℕ} (hp : p < h.next) (hV : p ∉ (decVs calls).dropLast) (hW : p ∉ (decWs calls).dropLast) :
    h1.live p = h.live p := by
  rw [st.live, if_neg (by omega), if_neg (by simp [hV, hW])]

theorem use_of {h : Heap} {p : ℕ} (hp : (∃ k, h.live p = some k) ∨ h.auto p = true) : h.use (some p) = .ok () := by
  unfold Heap.use
  rcases hp with ⟨k, hk⟩ | hp
  · simp [hk]
  · simp [hp]

theorem DecUse.v_notMem_w (hh : h.Ok) {calls : List DecCall} (hu : DecUse S n s r h calls) {p : ℕ} (hp : p ∈ decVs calls) :
    p ∉ decWs calls := by
  intro hq
  have h1 := (decUse_w hu hq).1
  rcases decUse_v hu hp with h2 | h2
  · rw [h1] at h2; cases h2
  · rw [(hh.auto p h2).1] at h1; cases h1

theorem DecUse.v_lt (hh : h.Ok) {calls : List DecCall} (hu : DecUse S n s r h calls) {p : ℕ} (hp : p ∈ decVs calls) : p < h.next := by
  rcases decUse_v hu hp with h2 | h2
  · exact dec_fresh hh h2
  · exact (hh.auto p h2).2

theorem DecSt.useV (hh : h.Ok) {calls : List DecCall} {d : DecObj} {h1 : Heap} (hu : DecUse S n s r h calls)
    (st : DecSt n s r h calls d h1) {p : ℕ} (hp : p ∈ decVs calls) (hV : p ∉ (decVs calls).dropLast) : h1.use (some p) = .ok () := by
  refine use_of ?_
  rw [st.cur hh hu (hu.v_lt hh hp) hV fun hm => hu.v_notMem_w hh hp (List.dropLast_subset _ hm), st.auto]
  exact (decUse_v hu hp).imp (fun h => ⟨_, h⟩) id

theorem DecSt.useW (hh : h.Ok) {calls : List DecCall} {d : DecObj} {h1 : Heap} (hu : DecUse S n s r h calls)
    (st : DecSt n s r h calls d h1) {q : ℕ} (hq : q ∈ decWs calls) (hW : q ∉ (decWs calls).dropLast) :
    h1.live q = some .array := by
  rw [st.cur hh hu (dec_fresh hh (decUse_w hu hq).1) (fun hm => hu.v_notMem_w hh (List.dropLast_subset _ hm) hq) hW]
  exact (decUse_w hu hq).1

theorem decSt_steps (hh : h.Ok) (calls : List DecCall) (hu : DecUse S n s r h calls) :
    ∃ d h1, calls.foldlM (fun p c => decCall S p.1 p.2 c) (decConstruct n s r h) = .ok (d, h1) ∧ DecSt n s r h calls d h1 := by
  induction calls using List.reverseRecOn with
  | nil =>
    refine ⟨_, _, rfl, rfl, rfl, rfl, rfl, rfl, rfl, rfl, rfl, fun p => ?_⟩
    simp only [decConstruct, Heap.alloc, decVs, decWs, List.filterMap_nil, List.dropLast_nil, List.not_mem_nil, or_self, if_false,
      Function.update_apply]
    by_cases h1 : p = h.next + 1
    · subst h1; simp
    · by_cases h2 : p = h.next
      · subst h2; simp
      · simp [h1, h2]
  | append_singleton l c ih =>
    obtain ⟨d, h1, e, st⟩ := ih hu.prefix
    have hul := hu.prefix (pre := l)
    have hfold : ∀ {d' h'}, decCall S d h1 c = .ok (d', h') →
        (l ++ [c]).foldlM (fun p c => decCall S p.1 p.2 c) (decConstruct n s r h) = .ok (d', h') := by
      intro d' h' hc
      rw [List.foldlM_append, e]
      simp only [bind, Except.bind, List.foldlM_cons, List.foldlM_nil, hc, pure, Except.pure]
    cases c with
    | init v w =>
      obtain ⟨p, q, rfl, rfl, ha⟩ := hu.args v w (by simp)
      have eV : decVs (l ++ [.init (some p) (some q)]) = decVs l ++ [p] := by rw [decVs_append]; rfl
      have eW : decWs (l ++ [.init (some p) (some q)]) = decWs l ++ [q] := by rw [decWs_append]; rfl
      have nV : p ∉ decVs l := by
        have := hu.vs
        rw [eV, List.nodup_append] at this
        exact fun hm => this.2.2 p hm p (by simp) rfl
      have nW : q ∉ decWs l := by
        have := hu.ws
        rw [eW, List.nodup_append] at this
        exact fun hm => this.2.2 q hm q (by simp) rfl
      have pW : p ∉ decWs l := fun hm => hu.v_notMem_w hh (p := p) (by simp [eV]) (by simp [eW, hm])
      have qV : q ∉ decVs l := fun hm => hu.v_notMem_w hh (p := q) (by simp [eV, hm]) (by simp [eW])
      have pn : p < h.next := hu.v_lt hh (by simp [eV])
      have qn : q < h.next := dec_fresh hh ha.w
      have up : h1.use (some p) = .ok () := by
        refine use_of ?_
        rw [st.cur hh hul pn (fun hm => nV (List.dropLast_subset _ hm)) fun hm => pW (List.dropLast_subset _ hm), st.auto]
        exact ha.v.imp (fun h => ⟨_, h⟩) id
      have uq : h1.use (some q) = .ok () := by
        refine use_of (.inl ⟨.array, ?_⟩)
        rw [st.cur hh hul qn (fun hm => qV (List.dropLast_subset _ hm)) fun hm => nW (List.dropLast_subset _ hm)]
        exact ha.w
      have us : h1.use d.size = .ok () := by
        rw [st.size]
        exact use_of (.inl ⟨.array, by rw [st.live]; simp⟩)
      have ur : h1.use d.rank = .ok () := by
        rw [st.rank]
        exact use_of (.inl ⟨.array, by rw [st.live]; simp⟩)
      have has : ∀ i ∈ List.range d.order, decAssert S d h1 (some p) (some q) i = .ok () := by
        intro i hi
        rw [List.mem_range, st.order] at hi
        unfold decAssert
        simp only [up, us, ur, uq, bind, Except.bind, Option.map_some, Option.bind_some, ha.lens]
        rw [List.getElem?_replicate_of_lt hi, ha.cols.2 i hi]
        simp [st.s_eq, st.r_eq]
      -- freeing the previous tensor and factors
      have hfreeV : ∃ h2, h1.free .single d.V = .ok h2 ∧ h2.auto = h1.auto ∧
          ∀ x, h2.live x = if x ∈ (decVs l).getLast? then none else h1.live x := by
        cases hg : (decVs l).getLast? with
        | none => exact ⟨h1, by rw [st.V, hg]; rfl, rfl, fun x => by simp⟩
        | some p0 =>
          have hm : p0 ∈ decVs l := List.mem_of_getLast? hg
          have hl : h1.live p0 = some .single := by
            rw [st.cur hh hul (hul.v_lt hh hm) (dropLast_mem hul.vs hg)
              fun hw => hul.v_notMem_w hh hm (List.dropLast_subset _ hw)]
            refine hu.heap p0 ?_
            rw [eV, List.dropLast_concat]
            exact hm
          refine ⟨⟨Function.update h1.live p0 none, h1.auto, h1.next⟩, by rw [st.V, hg]; exact free_ok hl, rfl, fun x => ?_⟩
          simp only [Function.update_apply, Option.mem_def, Option.some.injEq]
          congr 1
          exact propext eq_comm
      obtain ⟨h2, f1, f2, f3⟩ := hfreeV
      have hfreeW : ∃ h3, h2.free .array d.W = .ok h3 ∧ h3.auto = h2.auto ∧
          ∀ x, h3.live x = if x ∈ (decWs l).getLast? then none else h2.live x := by
        cases hg : (decWs l).getLast? with
        | none => exact ⟨h2, by rw [st.W, hg]; rfl, rfl, fun x => by simp⟩
        | some q0 =>
          have hm : q0 ∈ decWs l := List.mem_of_getLast? hg
          have hl : h2.live q0 = some .array := by
            rw [f3, if_neg, st.useW hh hul hm (dropLast_mem hul.ws hg)]
            exact fun hv => hul.v_notMem_w hh (List.mem_of_getLast? hv) hm
          refine ⟨⟨Function.update h2.live q0 none, h2.auto, h2.next⟩, by rw [st.W, hg]; exact free_ok hl, rfl, fun x => ?_⟩
          simp only [Function.update_apply, Option.mem_def, Option.some.injEq]
          congr 1
          exact propext eq_comm
      obtain ⟨h3, f4, f5, f6⟩ := hfreeW
      refine ⟨{ d with V := some p, W := some q }, h3, hfold ?_, st.order, st.s_eq, st.r_eq, st.size, st.rank, ?_, ?_, ?_, ?_⟩
      · simp only [decCall, decInit, up, bind, Except.bind, Option.map_some, ha.lens, List.length_replicate, st.order, ne_eq,
          not_true_eq_false, if_false]
        rw [← st.order, forM_ok has]
        simp only [f1, f4, pure, Except.pure, reduceCtorEq, not_false_eq_true, if_true]
      · simp [eV]
      · simp [eW]
      · rw [f5, f2, st.auto]
      · intro x
        rw [f6, f3, st.live, eV, eW, List.dropLast_concat, List.dropLast_concat]
        have split : ∀ (L : List ℕ), x ∈ L ↔ x ∈ L.getLast? ∨ x ∈ L.dropLast := by
          intro L
          induction L using List.reverseRecOn with
          | nil => simp
          | append_singleton L a _ => simp [or_comm, eq_comm]
        have hnx : ∀ y, y ∈ decVs l ∨ y ∈ decWs l → y < h.next := by
          rintro y (hy | hy)
          · exact hul.v_lt hh hy
          · exact dec_fresh hh (decUse_w hul hy).1
        by_cases hx : x = h.next ∨ x = h.next + 1
        · have a1 : x ∉ (decVs l).getLast? := fun hm => by have := hnx x (.inl (List.mem_of_getLast? hm)); omega
          have a2 : x ∉ (decWs l).getLast? := fun hm => by have := hnx x (.inr (List.mem_of_getLast? hm)); omega
          rw [if_neg a2, if_neg a1, if_pos hx, if_pos hx]
        · rw [if_neg hx, if_neg hx]
          simp only [split (decVs l), split (decWs l)]
          by_cases b1 : x ∈ (decVs l).getLast? <;> by_cases b2 : x ∈ (decWs l).getLast? <;>
            by_cases b3 : x ∈ (decVs l).dropLast <;> by_cases b4 : x ∈ (decWs l).dropLast <;> simp [b1, b2, b3, b4]
    | printV =>
      have hne := hu.prints l .printV [] rfl (.inl rfl)
      have eV : decVs (l ++ [.printV]) = decVs l := by rw [decVs_append]; simp [decVs]
      have eW : decWs (l ++ [.printV]) = decWs l := by rw [decWs_append]; simp [decWs]
      refine ⟨d, h1, hfold ?_, st.order, st.s_eq, st.r_eq, st.size, st.rank, by rw [eV, st.V], by rw [eW, st.W], st.auto,
        by rw [eV, eW]; exact st.live⟩
      obtain ⟨p, hg⟩ := (⟨_, List.getLast?_eq_some_getLast hne⟩ : ∃ x, _ = some x)
      have hm : p ∈ decVs l := List.mem_of_getLast? hg
      simp only [decCall, st.V, hg, reduceCtorEq, if_false, bind, Except.bind,
        st.useV hh hul hm (dropLast_mem hul.vs hg), pure, Except.pure]
    | printW i =>
      have hne := (decUse_both hul).1 (hu.prints l (.printW i) [] rfl (.inr ⟨i, rfl⟩))
      have hi := hu.index i (by simp)
      have eV : decVs (l ++ [.printW i]) = decVs l := by rw [decVs_append]; simp [decVs]
      have eW : decWs (l ++ [.printW i]) = decWs l := by rw [decWs_append]; simp [decWs]
      refine ⟨d, h1, hfold ?_, st.order, st.s_eq, st.r_eq, st.size, st.rank, by rw [eV, st.V], by rw [eW, st.W], st.auto,
        by rw [eV, eW]; exact st.live⟩
      obtain ⟨q, hg⟩ := (⟨_, List.getLast?_eq_some_getLast hne⟩ : ∃ x, _ = some x)
      have hm : q ∈ decWs l := List.mem_of_getLast? hg
      have hc := (decUse_w hul hm).2
      have u : h1.use (some q) = .ok () := use_of (.inl ⟨_, st.useW hh hul hm (dropLast_mem hul.ws hg)⟩)
      obtain ⟨c, hc'⟩ : ∃ c, (S.cols q)[i]? = some c := ⟨_, List.getElem?_eq_getElem (by omega)⟩
      simp only [decCall, st.W, hg, reduceCtorEq, if_false, bind, Except.bind, u, Option.map_some, Option.bind_some, hc',
        pure, Except.pure]

/-- **C78.** A `Decomposition` object may be initialised any number of times with fresh tensors and factors, printed and destroyed:
no memory error and no failed assertion; afterwards every factor array passed to `Init` and every tensor but the last one has been
freed, the last tensor is left to the caller, and the rest of the heap is as before (the object leaves nothing behind). -/
theorem C78_life (hh : h.Ok) {calls : List DecCall} (hu : DecUse S n s r h calls) :
    ∃ h', decLife S n s r h calls = .ok h' ∧ (∀ q ∈ decWs calls, h'.live q = none) ∧
      (∀ p ∈ (decVs calls).dropLast, h'.live p = none) ∧
      ∀ x, x ∉ decWs calls → x ∉ (decVs calls).dropLast → h'.live x = h.live x := by
  obtain ⟨d, h1, e, st⟩ := decSt_steps hh calls hu
  have hfreeW : ∃ h3, h1.free .array d.W = .ok h3 ∧
      ∀ x, h3.live x = if x ∈ (decWs calls).getLast? then none else h1.live x := by
    cases hg : (decWs calls).getLast? with
    | none => exact ⟨h1, by rw [st.W, hg]; rfl, fun x => by simp⟩
    | some q0 =>
      have hm : q0 ∈ decWs calls := List.mem_of_getLast? hg
      refine ⟨⟨Function.update h1.live q0 none, h1.auto, h1.next⟩, by
        rw [st.W, hg]; exact free_ok (st.useW hh hu hm (dropLast_mem hu.ws hg)), fun x => ?_⟩
      simp only [Function.update_apply, Option.mem_def, Option.some.injEq]
      congr 1
      exact propext eq_comm
  obtain ⟨h3, f1, f2⟩ := hfreeW
  have hwn : ∀ y ∈ decWs calls, y < h.next := fun y hy => dec_fresh hh (decUse_w hu hy).1
  have l1 : h3.live h.next = some .array := by
    have : h.next ∉ (decWs calls).getLast? := fun hm => absurd (hwn _ (List.mem_of_getLast? hm)) (by omega)
    rw [f2, if_neg this, st.live]; simp
  have l2 : h3.live (h.next + 1) = some .array := by
    have : h.next + 1 ∉ (decWs calls).getLast? := fun hm => absurd (hwn _ (List.mem_of_getLast? hm)) (by omega)
    rw [f2, if_neg this, st.live]; simp
  refine ⟨⟨Function.update (Function.update h3.live h.next none) (h.next + 1) none, h3.auto, h3.next⟩, ?_, ?_, ?_, ?_⟩
  · unfold decLife
    simp only [bind, Except.bind]
    rw [e]
    simp only [decDestroy, bind, Except.bind, f1, st.size, st.rank]
    rw [free_ok l1]
    simp only
    rw [free_ok]
    simp [l2]
  · intro q hq
    have := hwn q hq
    simp only [Function.update_apply]
    rw [if_neg (by omega), if_neg (by omega), f2]
    split_ifs with hg
    · rfl
    · rw [st.live, if_neg (by omega), if_pos]
      right
      obtain ⟨l, a, hl⟩ : ∃ l a, decWs calls = l ++ [a] :=
        ⟨_, _, (List.dropLast_append_getLast (List.ne_nil_of_mem hq)).symm⟩
      rw [hl] at hq hg ⊢
      simp at hq hg ⊢
      rcases hq with hq | hq
      · exact hq
      · exact absurd hq.symm hg
  · intro p hp
    have hm := List.dropLast_subset _ hp
    have := hu.v_lt hh hm
    simp only [Function.update_apply]
    rw [if_neg (by omega), if_neg (by omega), f2]
    split_ifs
    · rfl
    · rw [st.live, if_neg (by omega), if_pos (.inl hp)]
  · intro x hw hv
    simp only [Function.update_apply]
    split_ifs with h1 h2
    · rw [hh.fresh x (by omega)]
    · rw [hh.fresh x (by omega)]
    · have hx : x ∉ (decWs calls).getLast? := fun hm => hw (List.mem_of_getLast? hm)
      rw [f2, if_neg hx, st.live, if_neg (by omega),
        if_neg (by rintro (h | h); exacts [hv h, hw (List.dropLast_subset _ h)])]

/-- `Init` that returns, for at least one mode: the factor array is alive, the old tensor and the old factors are freed. -/
theorem decInit_inv {d d' : DecObj} {h' : Heap} {v w : Option ℕ} (h1 : 1 ≤ d.order) (e : decInit S d h v w = .ok (d', h')) :
    ∃ q, w = some q ∧ h.use (some q) = .ok () ∧ d' = { d with V := v, W := w } ∧
      ∃ h2, h.free .single d.V = .ok h2 ∧ h2.free .array d.W = .ok h' := by
  unfold decInit at e
  simp only [bind, Except.bind, pure, Except.pure] at e
  cases hu : h.use v with
  | error x => rw [hu] at e; cases e
  | ok u =>
    rw [hu] at e
    simp only at e
    by_cases hl : (v.map S.lens).map List.length ≠ some d.order
    · rw [if_pos hl] at e; cases e
    · rw [if_neg hl] at e
      cases hf : (List.range d.order).forM (decAssert S d h v w) with
      | error x => rw [hf] at e; cases e
      | ok u =>
        rw [hf] at e
        simp only at e
        have huw : ∃ q, w = some q ∧ h.use (some q) = .ok () := by
          obtain ⟨m, hm⟩ : ∃ m, d.order = m + 1 := ⟨d.order - 1, by omega⟩
          rw [hm, List.range_succ_eq_map] at hf
          simp only [List.forM, bind, Except.bind] at hf
          cases ha : decAssert S d h v w 0 with
          | error x => rw [ha] at hf; cases hf
          | ok u =>
            unfold decAssert at ha
            simp only [bind, Except.bind, hu] at ha
            cases hs : h.use d.size with
            | error x => rw [hs] at ha; cases ha
            | ok u =>
              rw [hs] at ha
              simp only at ha
              cases hb : (v.map S.lens).bind (·[0]?) with
              | none => rw [hb] at ha; cases ha
              | some l =>
                rw [hb] at ha
                simp only at ha
                by_cases hc : l ≠ d.s
                · rw [if_pos hc] at ha; cases ha
                · rw [if_neg hc] at ha
                  cases hw : h.use w with
                  | error x => rw [hw] at ha; cases ha
                  | ok u =>
                    cases w with
                    | none => cases hw
                    | some q => exact ⟨q, rfl, hw⟩
        obtain ⟨q, rfl, hq⟩ := huw
        refine ⟨q, rfl, hq, ?_⟩
        cases hv : h.free .single d.V with
        | error x => rw [hv] at e; cases e
        | ok h2 =>
          rw [hv] at e
          simp only [ne_eq, reduceCtorEq, not_false_eq_true, if_true] at e
          cases hw : h2.free .array d.W with
          | error x => rw [hw] at e; cases e
          | ok h3 =>
            rw [hw] at e
            simp only [Except.ok.injEq, Prod.mk.injEq] at e
            exact ⟨e.1.symm, h2, rfl, by rw [← e.2, ← hw]⟩

theorem free_inv {h h' : Heap} {k : BlockKind} {p : Option ℕ} (e : h.free k p = .ok h') :
    h'.auto = h.auto ∧ (∀ x, h.live x = none → h'.live x = none) ∧ ∀ q, p = some q → h.live q = some k ∧ h'.live q = none := by
  cases p with
  | none =>
    cases e
    exact ⟨rfl, fun _ h => h, fun q hq => by cases hq⟩
  | some p =>
    unfold Heap.free at e
    simp only at e
    split_ifs at e with hp
    cases e
    refine ⟨rfl, fun x hx => ?_, fun q hq => ?_⟩
    · simp only [Function.update_apply]
      split_ifs
      · rfl
      · exact hx
    · cases hq
      exact ⟨hp, by simp⟩

/-- Automatic objects are not blocks of the heap. -/
def AutoOk (h : Heap) : Prop := ∀ p, h.auto p = true → h.live p = none

theorem AutoOk.free {h h' : Heap} (ha : AutoOk h) {k : BlockKind} {p : Option ℕ} (e : h.free k p = .ok h') : AutoOk h' := by
  obtain ⟨e1, e2, -⟩ := free_inv e
  intro x hx
  rw [e1] at hx
  exact e2 x (ha x hx)

/-- The array `q` is the current factor array or has been freed. -/
def Known (q : ℕ) (d : DecObj) (h : Heap) : Prop :=
  1 ≤ d.order ∧ AutoOk h ∧ (d.W = some q ∨ (h.live q = none ∧ h.auto q = false))

/-- The object owns the freed array `q`. -/
def Doomed (q : ℕ) (d : DecObj) (h : Heap) : Prop := 1 ≤ d.order ∧ d.W = some q ∧ h.live q = none ∧ h.auto q = false

theorem decCall_print {d d' : DecObj} {h' : Heap} {c : DecCall} (e : decCall S d h c = .ok (d', h'))
    (hc : ∀ v w, c ≠ .init v w) : d' = d ∧ h' = h := by
  cases c with
  | init v w => exact absurd rfl (hc v w)
  | printV =>
    simp only [decCall] at e
    split_ifs at e
    simp only [bind, Except.bind, pure, Except.pure] at e
    cases hu : h.use d.V with
    | error x => rw [hu] at e; cases e
    | ok u => rw [hu] at e; cases e; exact ⟨rfl, rfl⟩
  | printW i =>
    simp only [decCall] at e
    split_ifs at e
    simp only [bind, Except.bind, pure, Except.pure] at e
    cases hu : h.use d.W with
    | error x => rw [hu] at e; cases e
    | ok u =>
      rw [hu] at e
      simp only at e
      split at e
      · cases e
      · cases e; exact ⟨rfl, rfl⟩

theorem Known.call {q : ℕ} {d d' : DecObj} {h' : Heap} (hk : Known q d h) {c : DecCall} (e : decCall S d h c = .ok (d', h')) :
    Known q d' h' := by
  by_cases hc : ∀ v w, c ≠ .init v w
  · obtain ⟨rfl, rfl⟩ := decCall_print e hc
    exact hk
  · simp only [not_forall, not_not] at hc
    obtain ⟨v, w, rfl⟩ := hc
    obtain ⟨k1, k2, k3⟩ := hk
    obtain ⟨q', rfl, -, rfl, h2, f1, f2⟩ := decInit_inv k1 e
    refine ⟨k1, (k2.free f1).free f2, ?_⟩
    have a2 := k2.free f1
    obtain ⟨i1, i2, i3⟩ := free_inv f1
    obtain ⟨j1, j2, j3⟩ := free_inv f2
    right
    rcases k3 with k3 | ⟨k3, k4⟩
    · obtain ⟨l1, l2⟩ := j3 q k3
      refine ⟨l2, ?_⟩
      rw [j1]
      by_contra hne
      rw [Bool.not_eq_false] at hne
      rw [a2 q hne] at l1
      cases l1
    · exact ⟨j2 q (i2 q k3), by rw [j1, i1, k4]⟩

theorem Known.again {q : ℕ} {d d' : DecObj} {h' : Heap} (hk : Known q d h) {v : Option ℕ}
    (e : decCall S d h (.init v (some q)) = .ok (d', h')) : Doomed q d' h' := by
  have hk' := hk.call e
  obtain ⟨k1, k2, k3⟩ := hk
  obtain ⟨q', hq', u, rfl, h2, f1, f2⟩ := decInit_inv k1 e
  cases hq'
  rcases k3 with k3 | ⟨k3, k4⟩
  · obtain ⟨j1, j2, j3⟩ := free_inv f2
    obtain ⟨l1, l2⟩ := j3 q k3
    refine ⟨k1, rfl, l2, ?_⟩
    rw [j1]
    by_contra hne
    rw [Bool.not_eq_false] at hne
    rw [k2.free f1 q hne] at l1
    cases l1
  · simp [Heap.use, k3, k4] at u

theorem Doomed.call {q : ℕ} {d d' : DecObj} {h' : Heap} (hk : Doomed q d h) {c : DecCall} (e : decCall S d h c = .ok (d', h')) :
    Doomed q d' h' := by
  by_cases hc : ∀ v w, c ≠ .init v w
  · obtain ⟨rfl, rfl⟩ := decCall_print e hc
    exact hk
  · simp only [not_forall, not_not] at hc
    obtain ⟨v, w, rfl⟩ := hc
    obtain ⟨k1, k2, k3, k4⟩ := hk
    obtain ⟨q', rfl, -, rfl, h2, f1, f2⟩ := decInit_inv k1 e
    have := (free_inv f2).2.2 q k2
    rw [(free_inv f1).2.1 q k3] at this
    cases this.1

theorem calls_inv {I : DecObj → Heap → Prop} (hI : ∀ {d h d' h' c}, I d h → decCall S d h c = .ok (d', h') → I d' h')
    {l : List DecCall} {d : DecObj} {h : Heap} {p : DecObj × Heap} (h0 : I d h)
    (e : l.foldlM (fun p c => decCall S p.1 p.2 c) (d, h) = .ok p) : I p.1 p.2 := by
  induction l generalizing d h with
  | nil => cases e; exact h0
  | cons c l ih =>
    rw [List.foldlM_cons] at e
    simp only [bind, Except.bind] at e
    cases hc : decCall S d h c with
    | error x => rw [hc] at e; cases e
    | ok s =>
      rw [hc] at e
      exact ih (hI h0 hc) e

/-- **C78**, the other direction. Passing the same factor array to `Init` twice in the life of an object (of order at least 1) never
ends well, whatever else is called in between and afterwards: the object frees the array it goes on using. -/
theorem C78_same_factors (hh : h.Ok) (hn : 1 ≤ n) {pre mid post : List DecCall} {v v' : Option ℕ} {q : ℕ} (h' : Heap) :
    decLife S n s r h (pre ++ .init v (some q) :: mid ++ .init v' (some q) :: post) ≠ .ok h' := by
  intro e
  unfold decLife at e
  simp only [bind, Except.bind] at e
  cases hf : (pre ++ .init v (some q) :: mid ++ .init v' (some q) :: post).foldlM (fun p c => decCall S p.1 p.2 c)
      (decConstruct n s r h) with
  | error x => rw [hf] at e; cases e
  | ok p =>
    rw [hf] at e
    simp only at e
    rw [List.foldlM_append, List.foldlM_append] at hf
    simp only [bind, Except.bind, List.foldlM_cons] at hf
    have o0 : AutoOk (decConstruct n s r h).2 := by
      intro x hx
      have hx' : h.auto x = true := hx
      have := hh.auto x hx'
      simp only [decConstruct, Heap.alloc, Function.update_apply]
      rw [if_neg (by omega), if_neg (by omega), this.1]
    cases h1 : pre.foldlM (fun p c => decCall S p.1 p.2 c) (decConstruct n s r h) with
    | error x => rw [h1] at hf; cases hf
    | ok s1 =>
      rw [h1] at hf
      simp only at hf
      have i1 : 1 ≤ s1.1.order ∧ AutoOk s1.2 := by
        refine calls_inv (S := S) (I := fun d h => 1 ≤ d.order ∧ AutoOk h) ?_ (d := (decConstruct n s r h).1)
          (h := (decConstruct n s r h).2) ⟨hn, o0⟩ h1
        intro d h d' h' c hi hc
        by_cases hcc : ∀ v w, c ≠ .init v w
        · obtain ⟨rfl, rfl⟩ := decCall_print hc hcc
          exact hi
        · simp only [not_forall, not_not] at hcc
          obtain ⟨v, w, rfl⟩ := hcc
          obtain ⟨q', -, -, rfl, h2, f1, f2⟩ := decInit_inv hi.1 hc
          exact ⟨hi.1, (hi.2.free f1).free f2⟩
      cases h2 : decCall S s1.1 s1.2 (.init v (some q)) with
      | error x => rw [h2] at hf; cases hf
      | ok s2 =>
        rw [h2] at hf
        simp only at hf
        have i2 : Known q s2.1 s2.2 := by
          obtain ⟨q', hq', -, hd, h3, f1, f2⟩ := decInit_inv i1.1 h2
          refine ⟨by rw [hd]; exact i1.1, (i1.2.free f1).free f2, .inl (by rw [hd])⟩
        cases h3 : mid.foldlM (fun p c => decCall S p.1 p.2 c) s2 with
        | error x => rw [h3] at hf; cases hf
        | ok s3 =>
          rw [h3] at hf
          simp only at hf
          have i3 : Known q s3.1 s3.2 := calls_inv (S := S) (I := Known q) (fun hk hc => hk.call hc) i2 h3
          cases h4 : decCall S s3.1 s3.2 (.init v' (some q)) with
          | error x => rw [h4] at hf; cases hf
          | ok s4 =>
            rw [h4] at hf
            simp only at hf
            have i5 := calls_inv (S := S) (I := Doomed q) (fun hk hc => hk.call hc) (i3.again h4) hf
            unfold decDestroy at e
            rw [i5.2.1] at e
            simp [bind, Except.bind, Heap.free, i5.2.2.1] at e

/-- **C78**, what `Init` checks. If a program gets to the end of the life of an object, every `Init` on the way was given a tensor
with exactly `n` modes of length `s` and an array whose first `n` matrices have `r` columns; anything else stops the program. -/
theorem C78_checks (hn : 1 ≤ n) {calls : List DecCall} {h' : Heap} (e : decLife S n s r h calls = .ok h') {v w : Option ℕ}
    (hc : .init v w ∈ calls) :
    ∃ p q, v = some p ∧ w = some q ∧ S.lens p = List.replicate n s ∧ ∀ i < n, (S.cols q)[i]? = some r := by
  unfold decLife at e
  simp only [bind, Except.bind] at e
  cases hf : calls.foldlM (fun p c => decCall S p.1 p.2 c) (decConstruct n s r h) with
  | error x => rw [hf] at e; cases e
  | ok p =>
    clear e
    have key : ∀ {l : List DecCall} {d : DecObj} {h : Heap} {p : DecObj × Heap}, (d.order = n ∧ d.s = s ∧ d.r = r) →
        l.foldlM (fun p c => decCall S p.1 p.2 c) (d, h) = .ok p → .init v w ∈ l →
        ∃ (d : DecObj) (h : Heap) (t : DecObj × Heap), (d.order = n ∧ d.s = s ∧ d.r = r) ∧ decInit S d h v w = .ok t := by
      intro l
      induction l with
      | nil => intro d h p _ _ hm; cases hm
      | cons c l ih =>
        intro d h p hd hf hm
        rw [List.foldlM_cons] at hf
        simp only [bind, Except.bind] at hf
        cases hc : decCall S d h c with
        | error x => rw [hc] at hf; cases hf
        | ok t =>
          rw [hc] at hf
          rcases List.mem_cons.1 hm with rfl | hm
          · exact ⟨d, h, t, hd, hc⟩
          · refine ih (d := t.1) (h := t.2) ?_ hf hm
            by_cases hcc : ∀ v w, c ≠ .init v w
            · obtain ⟨h1, -⟩ := decCall_print (d' := t.1) (h' := t.2) hc hcc
              rw [h1]; exact hd
            · simp only [not_forall, not_not] at hcc
              obtain ⟨v, w, rfl⟩ := hcc
              obtain ⟨q', -, -, h1, -⟩ := decInit_inv (d' := t.1) (h' := t.2) (hd.1 ▸ hn) hc
              rw [h1]; exact hd
    obtain ⟨d, h1, t, ⟨hd1, hd2, hd3⟩, hi⟩ := key (d := (decConstruct n s r h).1) ⟨rfl, rfl, rfl⟩ hf hc
    unfold decInit at hi
    simp only [bind, Except.bind, hd1] at hi
    cases hu : h1.use v with
    | error x => rw [hu] at hi; cases hi
    | ok _ =>
      rw [hu] at hi
      simp only at hi
      split at hi
      · cases hi
      rename_i hlen
      have hall : ∀ i < n, decAssert S d h1 v w i = .ok () := by
        have : ∀ {l : List ℕ}, (∃ u, l.forM (decAssert S d h1 v w) = .ok u) → ∀ i ∈ l, decAssert S d h1 v w i = .ok () := by
          intro l
          induction l with
          | nil => intro _ i hi; cases hi
          | cons a l ih =>
            rintro ⟨u, hu⟩ i hi
            simp only [List.forM, bind, Except.bind] at hu
            cases ha : decAssert S d h1 v w a with
            | error x => rw [ha] at hu; cases hu
            | ok y =>
              rw [ha] at hu
              rcases List.mem_cons.1 hi with rfl | hi
              · exact ha
              · exact ih ⟨u, hu⟩ i hi
        intro i hin
        refine this ?_ i (List.mem_range.2 hin)
        cases hq : (List.range n).forM (decAssert S d h1 v w) with
        | error x => rw [hq] at hi; cases hi
        | ok u => exact ⟨u, rfl⟩
      have each : ∀ i < n, (v.map S.lens).bind (·[i]?) = some s ∧ (w.map S.cols).bind (·[i]?) = some r := by
        intro i hin
        have ha := hall i hin
        unfold decAssert at ha
        simp only [bind, Except.bind, hu] at ha
        cases h2 : h1.use d.size with
        | error x => rw [h2] at ha; cases ha
        | ok _ =>
          rw [h2] at ha
          simp only at ha
          cases h3 : (v.map S.lens).bind (·[i]?) with
          | none => rw [h3] at ha; cases ha
          | some l =>
            rw [h3] at ha
            simp only at ha
            split at ha
            · cases ha
            rename_i hl
            cases h4 : h1.use w with
            | error x => rw [h4] at ha; cases ha
            | ok _ =>
              rw [h4] at ha
              simp only at ha
              cases h5 : h1.use d.rank with
              | error x => rw [h5] at ha; cases ha
              | ok _ =>
                rw [h5] at ha
                simp only at ha
                cases h6 : (w.map S.cols).bind (·[i]?) with
                | none => rw [h6] at ha; cases ha
                | some c =>
                  rw [h6] at ha
                  simp only at ha
                  split at ha
                  · cases ha
                  rename_i hcr
                  rw [not_not] at hl hcr
                  rw [hl, hcr, hd2, hd3]
                  exact ⟨rfl, rfl⟩
      cases v with
      | none => have := (each 0 hn).1; simp at this
      | some p1 =>
        cases w with
        | none => have := (each 0 hn).2; simp at this
        | some q1 =>
          refine ⟨p1, q1, rfl, rfl, ?_, fun i hin => by simpa using (each i hin).2⟩
          rw [not_not] at hlen
          have hl : (S.lens p1).length = n := by simpa using hlen
          refine List.ext_getElem? fun i => ?_
          by_cases hin : i < n
          · have := (each i hin).1
            simp only [Option.map_some, Option.bind_some] at this
            rw [this, List.getElem?_replicate, if_pos hin]
          · rw [List.getElem?_eq_none (by omega), List.getElem?_eq_none (by simp; omega)]

end

/-! ## Non-vacuity: `TEST_decomposition` (tests/test_decomposition.cxx:15-36), then a second tensor and other factors -/

/-- Order 3, length 5, rank 2: tensors at 0 and 2, factor arrays at 1 and 3. -/
def exDecHeap : Heap := ⟨fun p => if p = 0 ∨ p = 2 then some .single else if p = 1 ∨ p = 3 then some .array else none, fun _ => false, 4⟩

def exDecShapes : Shapes := ⟨fun _ => [5, 5, 5], fun _ => [2, 2, 2]⟩

theorem exDec_args {p q : ℕ} (hp : p = 0 ∨ p = 2) (hq : q = 1 ∨ q = 3) : DecArgs exDecShapes 3 5 2 exDecHeap p q := by
  refine ⟨.inl ?_, ?_, rfl, le_refl 3, ?_⟩
  · simp [exDecHeap, hp]
  · simp only [exDecHeap]
    rw [if_neg (by omega), if_pos hq]
  · intro i hi
    obtain rfl | rfl | rfl : i = 0 ∨ i = 1 ∨ i = 2 := by omega
    all_goals rfl

theorem exDec_use : exDecHeap.Ok ∧ DecUse exDecShapes 3 5 2 exDecHeap
    [.init (some 0) (some 1), .printW 0, .printW 1, .init (some 2) (some 3), .printV] := by
  refine ⟨⟨?_, fun p hp => by cases hp⟩, ⟨?_, by decide, by decide, ?_, ?_, ?_⟩⟩
  · intro p hp
    have hp' : 4 ≤ p := hp
    simp only [exDecHeap]
    rw [if_neg (by omega), if_neg (by omega)]
  · intro v w hm
    simp only [List.mem_cons, List.not_mem_nil, or_false, DecCall.init.injEq, reduceCtorEq, false_or, or_false] at hm
    rcases hm with ⟨rfl, rfl⟩ | ⟨rfl, rfl⟩
    · exact ⟨0, 1, rfl, rfl, exDec_args (.inl rfl) (.inl rfl)⟩
    · exact ⟨2, 3, rfl, rfl, exDec_args (.inr rfl) (.inr rfl)⟩
  · intro p hp
    have : p = 0 := by simpa [decVs] using hp
    subst this
    rfl
  · intro pre c post he hc hn
    cases pre with
    | nil =>
      simp only [List.nil_append, List.cons.injEq] at he
      rw [← he.1] at hc
      simp at hc
    | cons a pre =>
      simp only [List.cons_append, List.cons.injEq] at he
      rw [← he.1] at hn
      simp [decVs] at hn
  · intro i hi
    simp at hi
    omega

/-- A life that gets to its end, so the tensors and arrays passed to both `Init`s had the right shapes. -/
example : ∃ h', decLife exDecShapes 3 5 2 exDecHeap
      [.init (some 0) (some 1), .printW 0, .printW 1, .init (some 2) (some 3), .printV] = .ok h' ∧
    exDecShapes.lens 2 = [5, 5, 5] ∧ ∀ i < 3, (exDecShapes.cols 3)[i]? = some 2 := by
  obtain ⟨h', e, -⟩ := C78_life exDec_use.1 exDec_use.2
  obtain ⟨p, q, hp, hq, h1, h2⟩ := C78_checks (by decide) e (v := some 2) (w := some 3) (by simp)
  cases hp
  cases hq
  exact ⟨h', e, h1, h2⟩

end Properties
