import Verif.Model.Run
import Verif.Spec.Options
import Verif.Properties.AlsLoop

/-! # C44, C51-C53: options, set-up and noise of the main programs -/

namespace Properties

open Model

/-! ## C44 -/

theorem getCmdOption_cons (a : CStr) (l : List CStr) (o : CStr) :
    getCmdOption (a :: l) o = if a = o then l.head? else getCmdOption l o := by
  unfold getCmdOption
  by_cases h : a = o
  · subst h
    cases l <;> simp
  · simp [h]

/-- **C44**. `getCmdOption` returns the token after the first occurrence of the option. -/
theorem C44_lookup (argv : List CStr) (option t : CStr) :
    getCmdOption argv option = some t ↔ Spec.Follows argv option t := by
  unfold Spec.Follows
  induction argv with
  | nil => simp [getCmdOption]
  | cons a l ih =>
    rw [getCmdOption_cons]
    split_ifs with h
    · subst h
      constructor
      · intro h2
        exact ⟨0, by simp, by simp, by simpa [List.head?_eq_getElem?] using h2⟩
      · rintro ⟨i, h1, h2, h3⟩
        cases i with
        | zero => simpa [List.head?_eq_getElem?] using h3
        | succ i => exact absurd (by simp) (h2 0 (by omega))
    · rw [ih]
      constructor
      · rintro ⟨i, h1, h2, h3⟩
        refine ⟨i + 1, by simpa using h1, ?_, by simpa using h3⟩
        intro j hj
        cases j with
        | zero => simpa using h
        | succ j => simpa using h2 j (by omega)
      · rintro ⟨i, h1, h2, h3⟩
        cases i with
        | zero => simp at h1; exact absurd h1 h
        | succ i =>
          refine ⟨i, by simpa using h1, ?_, by simpa using h3⟩
          intro j hj
          simpa using h2 (j + 1) (by omega)

/-- **C44**. It returns the null pointer iff the option is absent or occurs only as the last token. -/
theorem C44_lookup_none (argv : List CStr) (option : CStr) :
    getCmdOption argv option = none ↔ option ∉ argv ∨ ∃ l, option ∉ l ∧ argv = l ++ [option] := by
  induction argv with
  | nil => simp [getCmdOption]
  | cons a l ih =>
    rw [getCmdOption_cons]
    split_ifs with h
    · subst h
      constructor
      · intro h2
        have : l = [] := by simpa using h2
        subst this
        exact Or.inr ⟨[], by simp, rfl⟩
      · rintro (h2 | ⟨l', h2, h3⟩)
        · simp at h2
        · cases l' with
          | nil => simp at h3; simp [h3]
          | cons b l' => simp at h3 h2; exact absurd h3.1 h2.1
    · rw [ih]
      constructor
      · rintro (h2 | ⟨l', h2, h3⟩)
        · exact Or.inl (by simp [h2]; exact fun h' => h h'.symm)
        · exact Or.inr ⟨a :: l', by simp [h2]; exact fun h' => h h'.symm, by simp [h3]⟩
      · rintro (h2 | ⟨l', h2, h3⟩)
        · exact Or.inl (by simp at h2; exact h2.2)
        · cases l' with
          | nil => simp at h3; exact absurd h3.1 h
          | cons b l' =>
            simp at h3 h2
            exact Or.inr ⟨l', h2.2, h3.2⟩

/-- `x` is between `0` and `1`, or NaN. -/
def UnitOrNan (x : F64) : Prop := x = .nan ∨ ∃ r, x = .fin r ∧ 0 ≤ r ∧ r ≤ 1

/-- `x` is nonnegative, or NaN. -/
def NonnegOrNan (x : F64) : Prop := x = .nan ∨ x = .pinf ∨ ∃ r, x = .fin r ∧ 0 ≤ r

theorem not_notUnit (x : F64) : ¬ notUnit x ↔ UnitOrNan x := by
  unfold notUnit UnitOrNan
  cases x <;> simp [F64.lt]

theorem not_negative (x : F64) : ¬ negative x ↔ NonnegOrNan x := by
  unfold negative NonnegOrNan
  cases x <;> simp [F64.lt]

theorem intOpt_value {argv : List CStr} {name : String} {bad : ℤ → Prop} [DecidablePred bad] {d v : ℤ}
    (h : intOpt argv name bad d = .ok v) :
    Spec.OptionValue (fun t x => atoi t = .ok x) (fun x => ¬ bad x) d (getCmdOption argv name.toList) v := by
  unfold intOpt at h
  unfold Spec.OptionValue
  cases ho : getCmdOption argv name.toList with
  | none =>
    rw [ho] at h
    simp only [Except.ok.injEq] at h
    exact Or.inl ⟨rfl, h.symm⟩
  | some t =>
    rw [ho] at h
    cases ha : atoi t with
    | error e => simp [ha, bind, Except.bind] at h
    | ok x =>
      simp only [ha, bind, Except.bind, pure, Except.pure, Except.ok.injEq] at h
      refine Or.inr ⟨t, x, rfl, ha, ?_⟩
      by_cases hb : bad x
      · rw [if_pos hb] at h
        exact Or.inr ⟨not_not.mpr hb, h.symm⟩
      · rw [if_neg hb] at h
        exact Or.inl ⟨hb, h.symm⟩

theorem dblOpt_value (atof : CStr → F64) (argv : List CStr) (name : String) (bad : F64 → Prop) (d : ℝ) :
    Spec.OptionValue (fun t x => x = atof t) (fun x => ¬ bad x) (.fin d) (getCmdOption argv name.toList)
      (dblOpt atof argv name bad d) := by
  unfold dblOpt Spec.OptionValue
  cases ho : getCmdOption argv name.toList with
  | none => exact Or.inl ⟨rfl, rfl⟩
  | some t =>
    refine Or.inr ⟨t, atof t, rfl, rfl, ?_⟩
    by_cases hb : bad (atof t)
    · exact Or.inr ⟨not_not.mpr hb, by simp [hb]⟩
    · exact Or.inl ⟨hb, by simp [hb]⟩

/-- The value of an integer option of the given name. -/
abbrev IntOption (argv : List CStr) (name : String) (valid : ℤ → Prop) (dflt value : ℤ) : Prop :=
  Spec.OptionValue (fun t x => atoi t = .ok x) valid dflt (getCmdOption argv name.toList) value

/-- The value of a floating-point option of the given name. -/
abbrev RealOption (atof : CStr → F64) (argv : List CStr) (name : String) (valid : F64 → Prop) (dflt : ℝ) (value : F64) : Prop :=
  Spec.OptionValue (fun t x => x = atof t) valid (.fin dflt) (getCmdOption argv name.toList) value

theorem optCongr {T A : Type} {read : T → A → Prop} {v v' : A → Prop} {d : A} {t : Option T} {x : A}
    (h : Spec.OptionValue read v d t x) (hv : ∀ a, v a ↔ v' a) : Spec.OptionValue read v' d t x := by
  have : v = v' := funext fun a => propext (hv a)
  rwa [← this]

theorem optValid {T A : Type} {read : T → A → Prop} {v : A → Prop} {d : A} {t : Option T} {x : A}
    (h : Spec.OptionValue read v d t x) (hd : v d) : v x := by
  rcases h with ⟨_, rfl⟩ | ⟨t, y, _, _, ⟨hy, rfl⟩ | ⟨_, rfl⟩⟩
  · exact hd
  · exact hy
  · exact hd

/-- **C44**. The value of every numeric option of run.cxx: as given if admissible, otherwise the default. -/
theorem C44_values {atof : CStr → F64} {argv : List CStr} {o : Opts} (h : runOpts atof argv = .ok o) :
    IntOption argv "-pp" (0 ≤ ·) 0 o.pp ∧ IntOption argv "-dim" (0 ≤ ·) 8 o.dim ∧
    IntOption argv "-maxiter" (0 ≤ ·) 5000 o.maxiter ∧ IntOption argv "-size" (0 ≤ ·) 10 o.size ∧
    IntOption argv "-rank" (0 ≤ ·) (o.size / 2) o.R ∧ IntOption argv "-updaterank" (0 ≤ ·) (o.size / 2) o.updateRank ∧
    IntOption argv "-issparse" (fun x => x = 0 ∨ x = 1) 0 o.issparse ∧
    IntOption argv "-resprint" (0 ≤ ·) 10 o.resprint ∧
    IntOption argv "-randomsvd" (fun x => x = 0 ∨ x = 1) 0 o.randomsvd ∧
    RealOption atof argv "-update_percentage_pp" UnitOrNan 1 o.updatePct ∧
    RealOption atof argv "-tol" UnitOrNan 1e-10 o.tol ∧ RealOption atof argv "-pp_res_tol" UnitOrNan 1e-2 o.ppResTol ∧
    RealOption atof argv "-timelimit" NonnegOrNan 5000 o.timelimit ∧
    RealOption atof argv "-lambda" NonnegOrNan 0 o.lambda ∧ RealOption atof argv "-magni" NonnegOrNan 1 o.magni ∧
    RealOption atof argv "-rationoise" NonnegOrNan 0.01 o.ratioNoise ∧
    RealOption atof argv "-colmin" (fun _ => True) 0.5 o.colMin ∧
    RealOption atof argv "-colmax" (fun _ => True) 0.9 o.colMax := by
  unfold runOpts at h
  simp only [bind, Except.bind, pure, Except.pure] at h
  split at h
  · cases h
  split at h
  · cases h
  split at h
  · cases h
  split at h
  · cases h
  split at h
  · cases h
  split at h
  · cases h
  split at h
  · cases h
  split at h
  · cases h
  split at h
  · cases h
  rename_i pp hpp _ dim hdim _ mi hmi _ s hs _ R hR _ ur hur _ sp hsp _ rp hrp _ rs hrs
  injection h with h
  subst h
  have hs0 : 0 ≤ s := optValid (optCongr (intOpt_value hs) (v' := (0 ≤ ·)) (by intro a; exact not_lt)) (by norm_num)
  have htd : Int.tdiv s 2 = s / 2 := Int.tdiv_eq_ediv_of_nonneg hs0
  rw [htd] at hR hur
  have hn : ∀ a : ℤ, ¬ a < 0 ↔ 0 ≤ a := fun a => not_lt
  have h01 : ∀ a : ℤ, ¬ (a < 0 ∨ a > 1) ↔ a = 0 ∨ a = 1 := fun a => by omega
  exact ⟨optCongr (intOpt_value hpp) hn, optCongr (intOpt_value hdim) hn, optCongr (intOpt_value hmi) hn, optCongr (intOpt_value hs) hn,
    optCongr (intOpt_value hR) hn, optCongr (intOpt_value hur) hn, optCongr (intOpt_value hsp) h01, optCongr (intOpt_value hrp) hn,
    optCongr (intOpt_value hrs) h01, optCongr (dblOpt_value _ _ _ _ _) not_notUnit, optCongr (dblOpt_value _ _ _ _ _) not_notUnit,
    optCongr (dblOpt_value _ _ _ _ _) not_notUnit, optCongr (dblOpt_value _ _ _ _ _) not_negative,
    optCongr (dblOpt_value _ _ _ _ _) not_negative, optCongr (dblOpt_value _ _ _ _ _) not_negative,
    optCongr (dblOpt_value _ _ _ _ _) not_negative, optCongr (dblOpt_value _ _ _ (fun _ => False) _) (fun _ => not_false_iff), optCongr (dblOpt_value _ _ _ (fun _ => False) _) (fun _ => not_false_iff)⟩

/-- **C44**. After parsing, every option of run.cxx is in its range -- or NaN, which passes every test. -/
theorem C44_ranges {atof : CStr → F64} {argv : List CStr} {o : Opts} (h : runOpts atof argv = .ok o) :
    (o.model.head? = some 'C' ∨ o.model.head? = some 'T') ∧ 0 ≤ o.pp ∧ 0 ≤ o.dim ∧ 0 ≤ o.maxiter ∧ 0 ≤ o.size ∧ 0 ≤ o.R ∧
    0 ≤ o.updateRank ∧ (o.issparse = 0 ∨ o.issparse = 1) ∧ 0 ≤ o.resprint ∧ (o.randomsvd = 0 ∨ o.randomsvd = 1) ∧
    UnitOrNan o.updatePct ∧ UnitOrNan o.tol ∧ UnitOrNan o.ppResTol ∧ NonnegOrNan o.timelimit ∧ NonnegOrNan o.lambda ∧
    NonnegOrNan o.magni ∧ NonnegOrNan o.ratioNoise := by
  obtain ⟨h1, h2, h3, h4, h5, h6, h7, h8, h9, g1, g2, g3, g4, g5, g6, g7, -, -⟩ := C44_values h
  have hs := optValid h4 (by norm_num)
  refine ⟨?_, optValid h1 (by norm_num), optValid h2 (by norm_num), optValid h3 (by norm_num), hs, optValid h5 (by omega),
    optValid h6 (by omega), optValid (v := fun x => x = 0 ∨ x = 1) h7 (Or.inl rfl), optValid h8 (by norm_num), optValid (v := fun x => x = 0 ∨ x = 1) h9 (Or.inl rfl),
    optValid g1 (Or.inr ⟨1, rfl, by norm_num⟩), optValid g2 (Or.inr ⟨_, rfl, by norm_num⟩),
    optValid g3 (Or.inr ⟨_, rfl, by norm_num⟩), optValid g4 (Or.inr (Or.inr ⟨_, rfl, by norm_num⟩)),
    optValid g5 (Or.inr (Or.inr ⟨_, rfl, by norm_num⟩)), optValid g6 (Or.inr (Or.inr ⟨_, rfl, by norm_num⟩)),
    optValid g7 (Or.inr (Or.inr ⟨_, rfl, by norm_num⟩))⟩
  have hm : o.model = modelOpt argv := by
    unfold runOpts at h
    simp only [bind, Except.bind, pure, Except.pure] at h
    repeat' (split at h; · cases h)
    injection h with h
    rw [← h]
  rw [hm]
  unfold modelOpt
  split
  · split_ifs with hc
    · left; rfl
    · tauto
  · left; rfl

/-- The options of run.cxx read as integers. -/
def intNames : List String :=
  ["-pp", "-dim", "-maxiter", "-size", "-rank", "-updaterank", "-issparse", "-resprint", "-randomsvd"]

theorem intOpt_ok {argv : List CStr} {name : String} (bad : ℤ → Prop) [DecidablePred bad] (d : ℤ)
    (h : ∀ t, getCmdOption argv name.toList = some t → ∃ v, atoi t = .ok v) : ∃ v, intOpt argv name bad d = .ok v := by
  unfold intOpt
  cases ho : getCmdOption argv name.toList with
  | none => exact ⟨d, rfl⟩
  | some t =>
    obtain ⟨v, hv⟩ := h t ho
    exact ⟨_, by simp only [hv, bind, Except.bind, pure, Except.pure]; rfl⟩

/-- **C44**. Parsing is defined for every argument vector whose integer tokens fit into `int`. -/
theorem C44_defined (atof : CStr → F64) (argv : List CStr)
    (h : ∀ name ∈ intNames, ∀ t, getCmdOption argv name.toList = some t → ∃ v, atoi t = .ok v) :
    ∃ o, runOpts atof argv = .ok o := by
  obtain ⟨v1, e1⟩ := intOpt_ok (argv := argv) (· < 0) 0 (h "-pp" (by simp [intNames]))
  obtain ⟨v2, e2⟩ := intOpt_ok (argv := argv) (· < 0) 8 (h "-dim" (by simp [intNames]))
  obtain ⟨v3, e3⟩ := intOpt_ok (argv := argv) (· < 0) 5000 (h "-maxiter" (by simp [intNames]))
  obtain ⟨v4, e4⟩ := intOpt_ok (argv := argv) (· < 0) 10 (h "-size" (by simp [intNames]))
  obtain ⟨v5, e5⟩ := intOpt_ok (argv := argv) (· < 0) (Int.tdiv v4 2) (h "-rank" (by simp [intNames]))
  obtain ⟨v6, e6⟩ := intOpt_ok (argv := argv) (· < 0) (Int.tdiv v4 2) (h "-updaterank" (by simp [intNames]))
  obtain ⟨v7, e7⟩ := intOpt_ok (argv := argv) (fun x => x < 0 ∨ x > 1) 0 (h "-issparse" (by simp [intNames]))
  obtain ⟨v8, e8⟩ := intOpt_ok (argv := argv) (· < 0) 10 (h "-resprint" (by simp [intNames]))
  obtain ⟨v9, e9⟩ := intOpt_ok (argv := argv) (fun x => x < 0 ∨ x > 1) 0 (h "-randomsvd" (by simp [intNames]))
  unfold runOpts
  simp only [e1, e2, e3, e4, e5, e6, e7, e8, e9, bind, Except.bind, pure, Except.pure]
  exact ⟨_, rfl⟩

/-! ### `atoi` -/

theorem digitsVal_append (acc : ℤ) (l r : CStr) (hl : ∀ c ∈ l, c.isDigit = true) (hr : ∀ c, r.head? = some c → c.isDigit = false) :
    digitsVal acc (l ++ r) = l.foldl (fun a c => a * 10 + ((c.toNat : ℤ) - 48)) acc := by
  induction l generalizing acc with
  | nil =>
    cases r with
    | nil => rfl
    | cons c r =>
      have := hr c rfl
      simp [digitsVal, this]
  | cons c l ih =>
    have hc := hl c (by simp)
    simp only [List.cons_append, digitsVal, hc, if_true, List.foldl_cons]
    exact ih _ (fun d hd => hl d (by simp [hd]))

theorem foldl_ofDigitChars (l : List Char) (hl : ∀ c ∈ l, c.isDigit = true) (a : ℕ) :
    l.foldl (fun a c => a * 10 + ((c.toNat : ℤ) - 48)) (a : ℤ) = (Nat.ofDigitChars 10 l a : ℤ) := by
  unfold Nat.ofDigitChars
  induction l generalizing a with
  | nil => rfl
  | cons c l ih =>
    have hc := hl c (by simp)
    simp only [List.foldl_cons]
    rw [← ih (fun d hd => hl d (by simp [hd]))]
    congr 1
    have h48 : 48 ≤ c.toNat := by
      have := hc
      simp only [Char.isDigit, Bool.and_eq_true, decide_eq_true_eq] at this
      have h2 := this.1
      rw [ge_iff_le, UInt32.le_iff_toNat_le] at h2
      exact h2
    have h0 : '0'.toNat = 48 := rfl
    rw [h0]
    push_cast [Nat.cast_sub h48]
    ring

theorem digitsVal_toDigits (n : ℕ) (r : CStr) (hr : ∀ c, r.head? = some c → c.isDigit = false) :
    digitsVal 0 (Nat.toDigits 10 n ++ r) = n := by
  have hd : ∀ c ∈ Nat.toDigits 10 n, c.isDigit = true := fun c hc => Nat.isDigit_of_mem_toDigits (by norm_num) (by norm_num) hc
  rw [digitsVal_append 0 _ r hd hr]
  have := foldl_ofDigitChars _ hd 0
  rw [Nat.cast_zero] at this
  rw [this, Nat.ofDigitChars_toDigits (by norm_num) (by norm_num)]

theorem digit_cases {c : Char} (h : c.isDigit = true) : isSpaceC c = false ∧ c ≠ '-' ∧ c ≠ '+' := by
  have h2 : 48 ≤ c.toNat ∧ c.toNat ≤ 57 := by
    simp only [Char.isDigit, Bool.and_eq_true, decide_eq_true_eq, ge_iff_le, UInt32.le_iff_toNat_le] at h
    exact h
  refine ⟨?_, ?_, ?_⟩
  · unfold isSpaceC
    have h3 : c ≠ ' ' := by rintro rfl; simp at h2
    have h4 : ¬ c.toNat ≤ 13 := by omega
    simp [h3, h4]
  · rintro rfl; simp at h2
  · rintro rfl; simp at h2

theorem dropSpace (sp : CStr) (hs : ∀ c ∈ sp, isSpaceC c = true) {c : Char} (hc : isSpaceC c = false) (l : CStr) :
    (sp ++ c :: l).dropWhile isSpaceC = c :: l := by
  induction sp with
  | nil => simp [hc]
  | cons a sp ih =>
    have := hs a (by simp)
    simp only [List.cons_append, List.dropWhile_cons, this, if_true]
    exact ih fun c hc => hs c (by simp [hc])

theorem isSpaceC_iff {c : Char} : isSpaceC c = true ↔ c ∈ Spec.cSpaces := by
  have key : ∀ n, n ≤ 13 → 9 ≤ n → (Char.ofNat n).toNat = n := by intro n h1 h2; interval_cases n <;> rfl
  unfold isSpaceC Spec.cSpaces
  simp only [Bool.or_eq_true, beq_iff_eq, Bool.and_eq_true, decide_eq_true_eq, List.mem_cons, List.not_mem_nil, or_false]
  constructor
  · rintro (h | ⟨h1, h2⟩)
    · exact .inl h
    · right
      rw [← Char.ofNat_toNat c]
      generalize c.toNat = n at h1 h2
      interval_cases n <;> simp
  · rintro (h | h | h | h | h | h)
    · exact .inl h
    all_goals
      right
      rw [h, key _ (by norm_num) (by norm_num)]
      norm_num

theorem dropSpaces (sp : CStr) (hs : ∀ c ∈ sp, c ∈ Spec.cSpaces) {c : Char} (hc : c ∉ Spec.cSpaces) (l : CStr) :
    (sp ++ c :: l).dropWhile isSpaceC = c :: l :=
  dropSpace sp (fun c h => isSpaceC_iff.2 (hs c h)) (by rw [← Bool.not_eq_true, isSpaceC_iff]; exact hc) l

/-- **C44**. Integers are read correctly: white space, an optional sign, the decimal digits of `n`, and anything not starting with a
digit after them; what does not fit into `int` is undefined behaviour. -/
theorem C44_atoi (n : ℕ) (sp r : CStr) (hs : ∀ c ∈ sp, c ∈ Spec.cSpaces) (hr : ∀ c, r.head? = some c → c.isDigit = false) :
    atoi (sp ++ (Nat.toDigits 10 n ++ r)) = (if n < 2 ^ 31 then .ok (n : ℤ) else .error .ub) ∧
    atoi (sp ++ '+' :: (Nat.toDigits 10 n ++ r)) = (if n < 2 ^ 31 then .ok (n : ℤ) else .error .ub) ∧
    atoi (sp ++ '-' :: (Nat.toDigits 10 n ++ r)) = (if n ≤ 2 ^ 31 then .ok (-(n : ℤ)) else .error .ub) := by
  obtain ⟨c, l, e⟩ : ∃ c l, Nat.toDigits 10 n = c :: l := by
    cases e : Nat.toDigits 10 n with
    | nil => exact absurd e (by simp)
    | cons c l => exact ⟨c, l, rfl⟩
  have hc := digit_cases (Nat.isDigit_of_mem_toDigits (b := 10) (n := n) (c := c) (by norm_num) (by norm_num) (by simp [e]))
  have hv := digitsVal_toDigits n r hr
  have hpos : (if -2147483648 ≤ (n : ℤ) ∧ (n : ℤ) ≤ 2147483647 then Except.ok (n : ℤ) else .error Fault.ub) =
      if n < 2 ^ 31 then .ok (n : ℤ) else .error .ub :=
    if_congr (by constructor <;> intro h <;> omega) rfl rfl
  have hneg : (if -2147483648 ≤ -(n : ℤ) ∧ -(n : ℤ) ≤ 2147483647 then Except.ok (-(n : ℤ)) else .error Fault.ub) =
      if n ≤ 2 ^ 31 then .ok (-(n : ℤ)) else .error .ub :=
    if_congr (by constructor <;> intro h <;> omega) rfl rfl
  refine ⟨?_, ?_, ?_⟩
  · unfold atoi
    have e2 : sp ++ (Nat.toDigits 10 n ++ r) = sp ++ c :: (l ++ r) := by rw [e]; rfl
    have e3 : digitsVal 0 (c :: (l ++ r)) = n := by rw [← hv, e]; rfl
    rw [e2, dropSpaces sp hs (by rw [← isSpaceC_iff, hc.1]; simp)]
    simp only
    split
    · rename_i h1 h2; simp at h2; exact absurd h2.1 hc.2.1
    · rename_i h1 h2; simp at h2; exact absurd h2.1 hc.2.2
    · rw [e3]
      exact hpos
  · unfold atoi
    rw [dropSpaces sp hs (by decide)]
    simp only
    rw [hv]
    exact hpos
  · unfold atoi
    rw [dropSpaces sp hs (by decide)]
    simp only
    rw [hv]
    exact hneg

/-- **C44**. A token that is not a number is read as `0` without any diagnostic. -/
theorem C44_garbage (sp r : CStr) (c : Char) (hs : ∀ c ∈ sp, c ∈ Spec.cSpaces) (hc : c.isDigit = false)
    (hsc : c ∉ Spec.cSpaces) (h1 : c ≠ '-') (h2 : c ≠ '+') : atoi (sp ++ c :: r) = .ok 0 := by
  unfold atoi
  rw [dropSpaces sp hs hsc]
  simp only
  split
  · rename_i h3; simp at h3; exact absurd h3.1 h1
  · rename_i h3; simp at h3; exact absurd h3.1 h2
  · simp [digitsVal, hc]

/-- **C51**. The documented values of `-tensor`: every other string with first letter p, c, r is read like that letter. -/
theorem C51_kinds (t : CStr) :
    (tensorKind t = .poisson ↔ ∃ l, t = 'p' :: l ∧ l.head? ≠ some '2') ∧ (tensorKind t = .poisson2 ↔ ∃ l, t = 'p' :: '2' :: l) ∧
    (tensorKind t = .collinear ↔ ∃ l, t = 'c' :: l) ∧
    (tensorKind t = .random ↔ ∃ l, t = 'r' :: l ∧ l.head? ≠ some '2') ∧ (tensorKind t = .random2 ↔ ∃ l, t = 'r' :: '2' :: l) ∧
    (tensorKind t = .coil ↔ ∃ l, t = 'o' :: '1' :: l) ∧ (tensorKind t = .timelapse ↔ ∃ l, t = 'o' :: '2' :: l) := by
  cases t with
  | nil => simp [tensorKind]
  | cons a t =>
    have h1 : (a :: t)[1]? = t.head? := by cases t <;> rfl
    have h2 : ∀ x : Char, (∃ l, t = x :: l) ↔ t.head? = some x := by
      intro x
      cases t <;> simp
    unfold tensorKind
    rw [h1]
    simp only [List.getElem?_cons_zero, Option.some.injEq, List.cons.injEq, exists_and_left, exists_eq_left', h2]
    have h12 : ('1' : Char) ≠ '2' := by decide
    refine ⟨?_, ?_, ?_, ?_, ?_, ?_, ?_⟩ <;> split_ifs <;> simp_all

/-- **C44**, violated part. NaN passes every range test: if `atof` reads the token as NaN, the option is NaN. -/
theorem C44_nan {atof : CStr → F64} {argv : List CStr} {o : Opts} (h : runOpts atof argv = .ok o) {t : CStr}
    (ht : atof t = .nan) :
    (getCmdOption argv "-tol".toList = some t → o.tol = .nan) ∧
    (getCmdOption argv "-timelimit".toList = some t → o.timelimit = .nan) ∧
    (getCmdOption argv "-lambda".toList = some t → o.lambda = .nan) := by
  obtain ⟨-, -, -, -, -, -, -, -, -, -, g2, -, g4, g5, -⟩ := C44_values h
  have key : ∀ {name : String} {valid : F64 → Prop} {d : ℝ} {x : F64}, RealOption atof argv name valid d x → valid .nan →
      getCmdOption argv name.toList = some t → x = .nan := by
    intro name valid d x hx hv ho
    rcases hx with ⟨h1, _⟩ | ⟨t', v, h1, h2, h3⟩
    · rw [ho] at h1; cases h1
    · rw [ho] at h1
      cases h1
      subst h2
      rw [ht] at h3
      rcases h3 with ⟨_, h3⟩ | ⟨h3, _⟩
      · exact h3
      · exact absurd hv h3
  exact ⟨key g2 (Or.inl rfl), key g4 (Or.inl rfl), key g5 (Or.inl rfl)⟩

/-- **C44**, violated part. `-resprint` with `0` or with a token that is not a number passes the tests, and then the first
iteration of `als` divides by zero, for every optimizer, tensor and clock. -/
theorem C44_resprint_zero {atof : CStr → F64} {argv : List CStr} {o : Opts} (h : runOpts atof argv = .ok o) {t : CStr}
    (ho : getCmdOption argv "-resprint".toList = some t) (ht : atoi t = .ok 0) :
    o.resprint = 0 ∧ ∀ (kind : OptKind) (N R : ℕ) (lam : ℝ) (solve : Spec.Solver ℝ) (q : ℕ) (lr : Spec.LowRank ℝ)
      (V : Tensor ℝ) (a : AlsArgs) (clock : ℕ → ℝ) (fuel : ℕ) (s : OptState ℝ × Fac ℝ),
      a.resprint = o.resprint → a.maxsweep = o.maxiter →
      cpdAls kind N R lam solve q lr V a clock (fuel + 1) s = .error .ub := by
  have hr : o.resprint = 0 := by
    obtain ⟨-, -, -, -, -, -, -, h8, -⟩ := C44_values h
    rcases h8 with ⟨h1, _⟩ | ⟨t', v, h1, h2, h3⟩
    · rw [ho] at h1; cases h1
    · rw [ho] at h1
      cases h1
      rw [ht] at h2
      cases h2
      rcases h3 with ⟨_, h3⟩ | ⟨h3, _⟩
      · exact h3
      · exact absurd (by norm_num) h3
  refine ⟨hr, fun kind N R lam solve q lr V a clock fuel s h1 h2 => ?_⟩
  exact C21_resprint_zero kind R lam solve q lr V (by rw [h1, hr]) (by rw [h2]; exact (C44_ranges h).2.2.2.1) clock fuel s

/-- **C44** for test_ALS.cxx. -/
theorem C44_test_values {atof : CStr → F64} {argv : List CStr} {o : Opts} (h : testOpts atof argv = .ok o) :
    IntOption argv "-pp" (fun x => 0 ≤ x ∧ x ≤ 2) 0 o.pp ∧ IntOption argv "-dim" (0 ≤ ·) 8 o.dim ∧
    IntOption argv "-maxiter" (0 ≤ ·) 5000 o.maxiter ∧ IntOption argv "-size" (0 ≤ ·) 10 o.size ∧
    IntOption argv "-rank" (fun x => 0 ≤ x ∧ x ≤ o.size) (o.size / 2) o.R ∧
    IntOption argv "-issparse" (fun x => x = 0 ∨ x = 1) 0 o.issparse ∧
    IntOption argv "-resprint" (0 ≤ ·) 10 o.resprint ∧
    RealOption atof argv "-update_percentage_pp" UnitOrNan 1 o.updatePct ∧
    RealOption atof argv "-tol" UnitOrNan 1e-10 o.tol ∧ RealOption atof argv "-pp_res_tol" UnitOrNan 1e-2 o.ppResTol ∧
    RealOption atof argv "-timelimit" NonnegOrNan 5000 o.timelimit ∧
    RealOption atof argv "-lambda" NonnegOrNan 0 o.lambda ∧ RealOption atof argv "-magni" NonnegOrNan 1 o.magni ∧
    RealOption atof argv "-rationoise" NonnegOrNan 0.01 o.ratioNoise ∧
    RealOption atof argv "-colmin" (fun _ => True) 0.5 o.colMin ∧
    RealOption atof argv "-colmax" (fun _ => True) 0.9 o.colMax := by
  unfold testOpts at h
  simp only [bind, Except.bind, pure, Except.pure] at h
  split at h
  · cases h
  split at h
  · cases h
  split at h
  · cases h
  split at h
  · cases h
  split at h
  · cases h
  split at h
  · cases h
  split at h
  · cases h
  rename_i pp hpp _ dim hdim _ mi hmi _ s hs _ R hR _ sp hsp _ rp hrp
  injection h with h
  subst h
  have hs0 : 0 ≤ s := optValid (optCongr (intOpt_value hs) (v' := (0 ≤ ·)) (by intro a; exact not_lt)) (by norm_num)
  have htd : Int.tdiv s 2 = s / 2 := Int.tdiv_eq_ediv_of_nonneg hs0
  rw [htd] at hR
  have hn : ∀ a : ℤ, ¬ a < 0 ↔ 0 ≤ a := fun a => not_lt
  have h01 : ∀ a : ℤ, ¬ (a < 0 ∨ a > 1) ↔ a = 0 ∨ a = 1 := fun a => by omega
  exact ⟨optCongr (intOpt_value hpp) (fun a => by omega), optCongr (intOpt_value hdim) hn, optCongr (intOpt_value hmi) hn,
    optCongr (intOpt_value hs) hn,
    optCongr (intOpt_value hR) (fun a => by change ¬ (a < 0 ∨ a > s) ↔ 0 ≤ a ∧ a ≤ s; omega), optCongr (intOpt_value hsp) h01, optCongr (intOpt_value hrp) hn,
    optCongr (dblOpt_value _ _ _ _ _) not_notUnit, optCongr (dblOpt_value _ _ _ _ _) not_notUnit,
    optCongr (dblOpt_value _ _ _ _ _) not_notUnit, optCongr (dblOpt_value _ _ _ _ _) not_negative,
    optCongr (dblOpt_value _ _ _ _ _) not_negative, optCongr (dblOpt_value _ _ _ _ _) not_negative,
    optCongr (dblOpt_value _ _ _ _ _) not_negative, optCongr (dblOpt_value _ _ _ (fun _ => False) _) (fun _ => not_false_iff),
    optCongr (dblOpt_value _ _ _ (fun _ => False) _) (fun _ => not_false_iff)⟩

/-- **C44**, test_ALS.cxx: a rank larger than the size is silently replaced by half the size. With the README's data-set
invocation (`-rank 20`, no `-size`) the rank used is 5. -/
theorem C44_test_rank {atof : CStr → F64} {argv : List CStr} {o : Opts} (h : testOpts atof argv = .ok o) {t : CStr} {r : ℤ}
    (ho : getCmdOption argv "-rank".toList = some t) (ht : atoi t = .ok r) (hr : o.size < r) : o.R = o.size / 2 := by
  obtain ⟨-, -, -, -, h5, -⟩ := C44_test_values h
  rcases h5 with ⟨h1, _⟩ | ⟨t', v, h1, h2, h3⟩
  · rw [ho] at h1; cases h1
  · rw [ho] at h1
    cases h1
    rw [ht] at h2
    cases h2
    rcases h3 with ⟨h3, _⟩ | ⟨_, h3⟩
    · omega
    · exact h3

/-! ## C51: set-up of run.cxx -/

/-- **C51**. For the kinds `p2`, `c`, `r`, `r2` the set-up passes the assertions of `Init`, and `-pp` selects the optimizer. -/
theorem C51_consistent {o : Opts} (hk : tensorKind o.tensor = .poisson2 ∨ tensorKind o.tensor = .collinear ∨
      tensorKind o.tensor = .random ∨ tensorKind o.tensor = .random2) (hC : o.model.head? = some 'C') :
    runSetup o = .ok (([OptKind.dt, .msdt, .dtlr, .msdtlr, .simple][o.pp.toNat]?).bind fun k =>
      if 0 ≤ o.pp then some (k, List.replicate o.dim.toNat o.size.toNat) else none) := by
  have hl : tensorLens (tensorKind o.tensor) o.dim.toNat o.size.toNat = .ok (List.replicate o.dim.toNat o.size.toNat) := by
    rcases hk with h | h | h | h <;> rw [h] <;> rfl
  have hC' : o.model[0]? = some 'C' := by rw [← List.head?_eq_getElem?]; exact hC
  have ha : ∀ n m r : ℕ, initAsserts (List.replicate n m) (List.replicate n r) n m r = .ok () := by
    intro n m r
    unfold initAsserts
    simp [List.zip_replicate]
  have hd : dispatch o = ([OptKind.dt, .msdt, .dtlr, .msdtlr, .simple][o.pp.toNat]?).bind fun k =>
      if 0 ≤ o.pp then some k else none := by
    unfold dispatch
    rw [if_pos hC']
    by_cases h0 : 0 ≤ o.pp
    · obtain ⟨n, hn⟩ := Int.eq_ofNat_of_zero_le h0
      rw [hn]
      match n with
      | 0 => rfl
      | 1 => rfl
      | 2 => rfl
      | 3 => rfl
      | 4 => rfl
      | n + 5 =>
        have h1 : ((n + 5 : ℕ) : ℤ) ≠ 0 := by omega
        have h2 : ((n + 5 : ℕ) : ℤ) ≠ 1 := by omega
        have h3 : ((n + 5 : ℕ) : ℤ) ≠ 2 := by omega
        have h4 : ((n + 5 : ℕ) : ℤ) ≠ 3 := by omega
        have h5 : ((n + 5 : ℕ) : ℤ) ≠ 4 := by omega
        rw [if_neg h1, if_neg h2, if_neg h3, if_neg h4, if_neg h5]
        simp
    · rw [if_neg (by omega), if_neg (by omega), if_neg (by omega), if_neg (by omega), if_neg (by omega)]
      simp [h0]
  unfold runSetup
  rw [hl, hd]
  simp only [bind, Except.bind, pure, Except.pure]
  cases hx : [OptKind.dt, .msdt, .dtlr, .msdtlr, .simple][o.pp.toNat]? with
  | none => rfl
  | some k =>
    by_cases h0 : 0 ≤ o.pp
    · simp only [Option.bind_some, if_pos h0, List.length_replicate, ha]
    · simp only [Option.bind_some, if_neg h0]

/-- **C51**, violated part. For the default tensor (`p`, folded to order `dim / 2`) every optimizer run aborts: the
decomposition is built for order `dim`. -/
theorem C51_default_aborts {o : Opts} (hk : tensorKind o.tensor = .poisson) (hd : 1 ≤ o.dim) (hC : o.model.head? = some 'C')
    (h0 : 0 ≤ o.pp) (h4 : o.pp ≤ 4) : runSetup o = .error .abort := by
  have hC' : o.model[0]? = some 'C' := by rw [← List.head?_eq_getElem?]; exact hC
  have hdis : ∃ k, dispatch o = some k := by
    unfold dispatch
    rw [if_pos hC']
    have : o.pp = 0 ∨ o.pp = 1 ∨ o.pp = 2 ∨ o.pp = 3 ∨ o.pp = 4 := by omega
    rcases this with h | h | h | h | h <;> simp [h]
  obtain ⟨k, hdis⟩ := hdis
  unfold runSetup
  rw [hk, hdis]
  simp only [tensorLens, bind, Except.bind]
  have : initAsserts (List.replicate (o.dim.toNat / 2) (o.size.toNat * o.size.toNat))
      (List.replicate (List.replicate (o.dim.toNat / 2) (o.size.toNat * o.size.toNat)).length o.R.toNat) o.dim.toNat
      o.size.toNat o.R.toNat = .error .abort := by
    unfold initAsserts
    rw [if_pos]
    simp only [List.length_replicate]
    omega
  rw [this]

/-- **C51**, violated part: starting the program without arguments (only `argv[0]`) aborts. -/
theorem C51_no_arguments (atof : CStr → F64) (prog : CStr) (hp : prog.head? ≠ some '-') :
    ∃ o, runOpts atof [prog] = .ok o ∧ runSetup o = .error .abort := by
  have hn : ∀ name : String, name.toList.head? = some '-' → getCmdOption [prog] name.toList = none := by
    intro name hname
    rw [C44_lookup_none]
    left
    simp only [List.mem_singleton]
    rintro rfl
    exact hp hname
  obtain ⟨o, ho⟩ := C44_defined atof [prog] (by
    intro name hname t ht
    exfalso
    rw [hn name (by simp only [intNames, List.mem_cons, List.not_mem_nil, or_false] at hname;
                    rcases hname with h|h|h|h|h|h|h|h|h <;> subst h <;> rfl)] at ht
    cases ht)
  refine ⟨o, ho, ?_⟩
  have hf : o.tensor = "p".toList ∧ o.model = "CP".toList ∧ o.pp = 0 ∧ o.dim = 8 := by
    have h1 : o.tensor = strOpt [prog] "-tensor" "p" ∧ o.model = modelOpt [prog] := by
      unfold runOpts at ho
      simp only [bind, Except.bind, pure, Except.pure] at ho
      repeat' (split at ho; · cases ho)
      injection ho with ho
      rw [← ho]
      exact ⟨rfl, rfl⟩
    obtain ⟨h2, h3, -⟩ := C44_values ho
    have e1 := hn "-pp" rfl
    have e2 := hn "-dim" rfl
    have e3 := hn "-tensor" rfl
    have e4 := hn "-model" rfl
    refine ⟨by rw [h1.1]; unfold strOpt; rw [e3]; rfl, by rw [h1.2]; unfold modelOpt; rw [e4], ?_, ?_⟩
    · rcases h2 with ⟨_, h⟩ | ⟨t, v, h, _⟩
      · exact h
      · rw [e1] at h; cases h
    · rcases h3 with ⟨_, h⟩ | ⟨t, v, h, _⟩
      · exact h
      · rw [e2] at h; cases h
  obtain ⟨g1, g2, g3, g4⟩ := hf
  exact C51_default_aborts (by rw [g1]; rfl) (by omega) (by rw [g2]; rfl) (by omega) (by omega)

/-- **C51**, violated part. The data sets `o1`, `o2` can never be decomposed: their mode lengths differ, the decomposition
is built with one size for all modes; and with `-dim` other than 4 the length array is overrun or read uninitialised. -/
theorem C51_datasets {o : Opts} (hk : tensorKind o.tensor = .coil ∨ tensorKind o.tensor = .timelapse) (x : OptKind × List ℕ) :
    runSetup o ≠ .ok (some x) := by
  intro h
  unfold runSetup at h
  by_cases h4 : o.dim.toNat = 4
  · have key : ∀ l : List ℕ, tensorLens (tensorKind o.tensor) o.dim.toNat o.size.toNat = .ok l → l.length = 4 →
        (∃ a b c d, l = [a, b, c, d] ∧ a ≠ b) := by
      intro l hl _
      rcases hk with hk | hk <;> rw [hk] at hl <;> simp only [tensorLens, if_pos h4, Except.ok.injEq] at hl
      · exact ⟨_, _, _, _, hl.symm, by norm_num⟩
      · exact ⟨_, _, _, _, hl.symm, by norm_num⟩
    have hl : ∃ l, tensorLens (tensorKind o.tensor) o.dim.toNat o.size.toNat = .ok l ∧ l.length = 4 := by
      rcases hk with hk | hk <;> rw [hk] <;> simp [tensorLens, h4]
    obtain ⟨l, hl, h4l⟩ := hl
    obtain ⟨a, b, c, d, rfl, hab⟩ := key l hl h4l
    rw [hl] at h
    simp only [bind, Except.bind, pure, Except.pure] at h
    cases hd : dispatch o with
    | none => rw [hd] at h; simp at h
    | some k =>
      rw [hd] at h
      simp only at h
      have : initAsserts [a, b, c, d] (List.replicate [a, b, c, d].length o.R.toNat) o.dim.toNat o.size.toNat o.R.toNat =
          .error .abort := by
        unfold initAsserts
        rw [if_neg (by simp [h4])]
        rw [if_neg]
        simp [List.replicate]
        intro h1 h2
        omega
      rw [this] at h
      simp at h
  · rcases hk with hk | hk <;> rw [hk] at h <;> simp [tensorLens, h4, bind, Except.bind] at h

/-! ## C52: noise -/

/-- **C52**. The noise step changes `V` by a tensor of norm exactly `ratio * ‖V‖`. -/
theorem C52_noise {V noise : Tensor ℝ} (hl : V.lens = noise.lens) (h0 : norm2 noise ≠ 0) {ratio : ℝ} (hr : 0 ≤ ratio) :
    ∃ V' D, addNoise ratio V noise = .ok V' ∧ zipT (· - ·) V' V = .ok D ∧ norm2 D = ratio * norm2 V := by
  obtain ⟨V', e1, -, e2, e3⟩ := zipT_ok (· + ·) (A := V) (B := scaleT (ratio * norm2 V / norm2 noise) noise) hl
  obtain ⟨D, f1, -, f2, f3⟩ := zipT_ok (· - ·) (A := V') (B := V) e2
  refine ⟨V', D, e1, f1, ?_⟩
  set c := ratio * norm2 V / norm2 noise with hc
  have hc0 : 0 ≤ c := by
    rw [hc]; unfold norm2; positivity
  have hD : sqNorm D = c ^ 2 * sqNorm noise := by
    unfold sqNorm
    rw [← List.sum_map_mul_left, f2, e2, hl]
    congr 1
    refine List.map_congr_left fun idx hidx => ?_
    have hf : fits noise.lens idx = true := mem_boxList.mp hidx
    rw [f3 idx (by rw [e2, hl]; exact hf), e3 idx (by rw [hl]; exact hf)]
    simp only [scaleT, if_pos hf]
    ring
  unfold norm2
  rw [hD, Real.sqrt_mul (by positivity), Real.sqrt_sq hc0]
  change c * norm2 noise = _
  rw [hc, div_mul_cancel₀ _ h0]
  rfl
  


/-! ## Non-vacuity -/

/-- `run -dim 4 -tensor r2 -pp 1 -resprint x` -/
def exArgv : List CStr :=
  ["run".toList, "-dim".toList, "4".toList, "-tensor".toList, "r2".toList, "-pp".toList, "1".toList, "-resprint".toList, "x".toList]

example : getCmdOption exArgv "-dim".toList = some "4".toList ∧ atoi "4".toList = .ok 4 := by
  constructor <;> decide

example : getCmdOption exArgv "-resprint".toList = some "x".toList ∧ atoi "x".toList = .ok 0 := by
  constructor <;> decide

example (atof : CStr → F64) : ∃ o, runOpts atof exArgv = .ok o ∧ o.resprint = 0 ∧ o.dim = 4 ∧
    runSetup o = .ok (some (.msdt, [10, 10, 10, 10])) := by
  have h : ∀ (name : String) (bad : ℤ → Prop) [DecidablePred bad] (d : ℤ), getCmdOption exArgv name.toList = none →
      intOpt exArgv name bad d = .ok d := by
    intro name bad _ d hn
    unfold intOpt
    rw [hn]
  have h2 : ∀ (name : String) (bad : ℤ → Prop) [DecidablePred bad] (d v : ℤ) (t : CStr),
      getCmdOption exArgv name.toList = some t → atoi t = .ok v → ¬ bad v → intOpt exArgv name bad d = .ok v := by
    intro name bad _ d v t hn ha hb
    unfold intOpt
    rw [hn]
    simp [ha, bind, Except.bind, pure, Except.pure, hb]
  unfold runOpts
  rw [h2 "-pp" _ 0 1 "1".toList (by decide) (by decide) (by norm_num), h2 "-dim" _ 8 4 "4".toList (by decide) (by decide) (by norm_num),
    h "-maxiter" _ _ (by decide), h "-size" _ _ (by decide), h2 "-resprint" _ 10 0 "x".toList (by decide) (by decide) (by norm_num)]
  simp only [bind, Except.bind, pure, Except.pure]
  rw [h "-rank" _ _ (by decide), h "-updaterank" _ _ (by decide), h "-issparse" _ _ (by decide), h "-randomsvd" _ _ (by decide)]
  refine ⟨_, rfl, rfl, rfl, ?_⟩
  have hm : modelOpt exArgv = "CP".toList := by decide
  have ht : strOpt exArgv "-tensor" "p" = "r2".toList := by decide
  refine (C51_consistent (Or.inr (Or.inr (Or.inr ?_))) ?_).trans ?_
  · simp only [ht]; decide
  · simp only [hm]; rfl
  · rfl

example : ∃ V noise : Tensor ℝ, V.lens = noise.lens ∧ norm2 noise ≠ 0 :=
  ⟨⟨[1], fun _ => 3⟩, ⟨[1], fun _ => 1⟩, rfl, by simp [norm2, sqNorm, boxList]⟩

end Properties
