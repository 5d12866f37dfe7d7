import Verif.Go.Scan
import Verif.Lemmas.FloatWrite
/-
What `Go/Scan` reads of texts that are numbers or begin like numbers.
-/
set_option autoImplicit false
namespace Verif.Scan
open FloatText JsonG

theorem every_byte {P : UInt8 → Prop} (h : ∀ n : Fin 256, P (UInt8.ofNat n.val)) (c : UInt8) : P c := by
  have := h ⟨c.toNat, c.toNat_lt⟩
  simpa using this

/-- the beginning of a decimal number: sign, digits, point and digits, letter and sign and digits, all of them optional -/
def Begin (q : Bytes) : Prop :=
  ∃ sg a f x, q = sg ++ (a ++ (f ++ x)) ∧ (sg = [] ∨ sg = [43] ∨ sg = [45]) ∧ Digits a ∧ (f = [] ∨ ∃ b, f = 46 :: b ∧ Digits b) ∧
    (x = [] ∨ ∃ c sg' ds, x = c :: (sg' ++ ds) ∧ (c = 101 ∨ c = 69) ∧ (sg' = [] ∨ sg' = [43] ∨ sg' = [45]) ∧ Digits ds)

/-- the end of a text or a space -/
def Stop (r : Bytes) : Prop := r = [] ∨ ∃ t, r = 32 :: t

theorem begin_decimal {s xs : Bytes} {neg : Bool} {m : Nat} {e : Int} (h : Decimal s xs neg m e) : Begin s := by
  obtain ⟨sg, a, f, b, x, xs, E, h1, h2, h3, h4, h5⟩ := h
  refine ⟨sg, a, f, x, rfl, h1, h2, ?_, ?_⟩
  · cases h3 with
    | none => exact .inl rfl
    | some _ hb => exact .inr ⟨_, rfl, hb⟩
  · cases h5 with
    | none => exact .inl rfl
    | pos c sg' ds hc hs _ hd => exact .inr ⟨c, sg', _, rfl, hc, by rcases hs with h | h <;> simp [h], hd⟩
    | neg c _ hc _ hd => exact .inr ⟨c, [45], _, rfl, hc, by simp, hd⟩

theorem digits_prefix {p q : Bytes} (h : p <+: q) (hq : Digits q) : Digits p := fun c hc => hq c (h.subset hc)

theorem prefix_append {p a b : Bytes} (h : p <+: a ++ b) : p <+: a ∨ ∃ p', p = a ++ p' ∧ p' <+: b := by
  obtain ⟨t, e⟩ := h
  rcases List.append_eq_append_iff.1 e with ⟨u, h1, h2⟩ | ⟨u, h1, h2⟩
  · exact .inl ⟨u, h1.symm⟩
  · exact .inr ⟨u, h1, ⟨t, h2.symm⟩⟩

theorem sign_prefix {p q : Bytes} (h : p <+: q) (hq : q = [] ∨ q = [43] ∨ q = [45]) : p = [] ∨ p = [43] ∨ p = [45] := by
  rcases hq with rfl | rfl | rfl
  · left; exact List.prefix_nil.1 h
  all_goals
    obtain ⟨t, e⟩ := h
    cases p with
    | nil => simp
    | cons c p =>
      simp at e
      obtain ⟨rfl, rfl, _⟩ := e
      simp

theorem begin_prefix {p q : Bytes} (h : p <+: q) (hq : Begin q) : Begin p := by
  obtain ⟨sg, a, f, x, rfl, h1, h2, h3, h4⟩ := hq
  rcases prefix_append h with h | ⟨p1, rfl, k1⟩
  · exact ⟨p, [], [], [], by simp, sign_prefix h h1, by simp [Digits], .inl rfl, .inl rfl⟩
  rcases prefix_append k1 with h | ⟨p2, rfl, k2⟩
  · exact ⟨sg, p1, [], [], by simp, h1, digits_prefix h h2, .inl rfl, .inl rfl⟩
  rcases prefix_append k2 with h | ⟨p3, rfl, k3⟩
  · refine ⟨sg, a, p2, [], by simp, h1, h2, ?_, .inl rfl⟩
    rcases h3 with rfl | ⟨b, rfl, hb⟩
    · exact .inl (List.prefix_nil.1 h)
    · cases p2 with
      | nil => exact .inl rfl
      | cons c p =>
        rw [List.cons_prefix_cons] at h
        obtain ⟨rfl, h'⟩ := h
        exact .inr ⟨p, rfl, digits_prefix h' hb⟩
  · refine ⟨sg, a, f, p3, rfl, h1, h2, h3, ?_⟩
    rcases h4 with rfl | ⟨c, sg', ds, rfl, hc, hs, hd⟩
    · exact .inl (List.prefix_nil.1 k3)
    · cases p3 with
      | nil => exact .inl rfl
      | cons c' p =>
        rw [List.cons_prefix_cons] at k3
        obtain ⟨rfl, k4⟩ := k3
        rcases prefix_append k4 with h | ⟨p4, rfl, k5⟩
        · exact .inr ⟨c', p, [], by simp, hc, sign_prefix h hs, by simp [Digits]⟩
        · exact .inr ⟨c', sg', p4, rfl, hc, hs, digits_prefix k5 hd⟩

/-! ### tokens -/

theorem accept_no {ok : UInt8 → Bool} {buf r : Bytes} (h : ∀ c, r.head? = some c → ok c = false) : accept ok ⟨buf, r⟩ = (false, ⟨buf, r⟩) := by
  cases r with
  | nil => rfl
  | cons c t => simp [accept, h c rfl]

theorem accept_yes {ok : UInt8 → Bool} {buf t : Bytes} {c : UInt8} (h : ok c = true) : accept ok ⟨buf, c :: t⟩ = (true, ⟨buf ++ [c], t⟩) := by
  simp [accept, h]

theorem acceptAll_run {ok : UInt8 → Bool} {buf a r : Bytes} (ha : ∀ c ∈ a, ok c = true) (h : ∀ c, r.head? = some c → ok c = false) :
    acceptAll ok ⟨buf, a ++ r⟩ = ⟨buf ++ a, r⟩ := by
  have hr : r.takeWhile ok = [] ∧ r.dropWhile ok = r := by
    cases r with
    | nil => exact ⟨rfl, rfl⟩
    | cons c t => simp [h c rfl]
  unfold acceptAll
  simp only [St.mk.injEq]
  constructor
  · rw [List.takeWhile_append_of_pos ha, hr.1, List.append_nil]
  · rw [List.dropWhile_append_of_pos ha, hr.2]

theorem digit_class {c : UInt8} (h : isDigit c = true) : decDigit c = true ∧ letter 110 c = false ∧ letter 105 c = false ∧ letter 120 c = false ∧ letter 101 c = false ∧
    letter 112 c = false ∧ sign c = false ∧ c ≠ 46 := by
  have : ∀ c : UInt8, isDigit c = true → decDigit c = true ∧ letter 110 c = false ∧ letter 105 c = false ∧ letter 120 c = false ∧ letter 101 c = false ∧
      letter 112 c = false ∧ sign c = false ∧ c ≠ 46 := by
    refine every_byte ?_
    decide +kernel
  exact this c h

theorem head_append {a r : Bytes} {c : UInt8} (h : (a ++ r).head? = some c) : a.head? = some c ∨ a = [] ∧ r.head? = some c := by
  cases a with
  | nil => exact .inr ⟨rfl, h⟩
  | cons d a => exact .inl h

theorem stop_head {r : Bytes} (h : Stop r) {c : UInt8} (hc : r.head? = some c) : c = 32 := by
  rcases h with rfl | ⟨t, rfl⟩
  · simp at hc
  · simpa using hc.symm

/-- what comes after the sign -/
theorem floatRest_begin {a f x r buf : Bytes} (h2 : Digits a) (h3 : f = [] ∨ ∃ b, f = 46 :: b ∧ Digits b)
    (h4 : x = [] ∨ ∃ c sg' ds, x = c :: (sg' ++ ds) ∧ (c = 101 ∨ c = 69) ∧ (sg' = [] ∨ sg' = [43] ∨ sg' = [45]) ∧ Digits ds) (hr : Stop r) :
    floatRest decDigit (fun c => letter 101 c || letter 112 c) ⟨buf, a ++ (f ++ (x ++ r))⟩ = ⟨buf ++ (a ++ (f ++ x)), r⟩ := by
  have hxr : ∀ c, (x ++ r).head? = some c → c = 101 ∨ c = 69 ∨ c = 32 := by
    intro c hc
    rcases head_append hc with h | ⟨rfl, h⟩
    · rcases h4 with rfl | ⟨c', _, _, rfl, h', _⟩
      · simp at h
      · simp at h
        subst h
        rcases h' with h | h <;> simp [h]
    · exact .inr (.inr (stop_head hr h))
  have hfxr : ∀ c, (f ++ (x ++ r)).head? = some c → c = 46 ∨ c = 101 ∨ c = 69 ∨ c = 32 := by
    intro c hc
    rcases head_append hc with h | ⟨rfl, h⟩
    · rcases h3 with rfl | ⟨b, rfl, _⟩
      · simp at h
      · simp at h
        exact .inl h.symm
    · exact .inr (hxr c h)
  have e1 : acceptAll decDigit ⟨buf, a ++ (f ++ (x ++ r))⟩ = ⟨buf ++ a, f ++ (x ++ r)⟩ := by
    refine acceptAll_run (fun c hc => (digit_class (h2 c hc)).1) ?_
    intro c hc
    rcases hfxr c hc with rfl | rfl | rfl | rfl <;> decide
  have e2 : fraction decDigit ⟨buf ++ a, f ++ (x ++ r)⟩ = ⟨buf ++ a ++ f, x ++ r⟩ := by
    unfold fraction
    rcases h3 with rfl | ⟨b, rfl, hb⟩
    · rw [List.nil_append, accept_no (by intro c hc; rcases hxr c hc with rfl | rfl | rfl <;> decide)]
      simp
    · rw [List.cons_append, accept_yes (by decide)]
      simp only
      rw [acceptAll_run (fun c hc => (digit_class (hb c hc)).1) (by intro c hc; rcases hxr c hc with rfl | rfl | rfl <;> decide)]
      simp
  unfold floatRest
  rw [e1, e2]
  unfold exponent
  have hr' : ∀ c, r.head? = some c → decDigit c = false ∧ sign c = false ∧ (letter 101 c || letter 112 c) = false := by
    intro c hc
    rw [stop_head hr hc]
    decide
  rcases h4 with rfl | ⟨c, sg', ds, rfl, hc, hs, hd⟩
  · rw [List.nil_append, accept_no fun c hc => (hr' c hc).2.2]
    simp
  · rw [List.cons_append, accept_yes (by rcases hc with rfl | rfl <;> decide)]
    simp only
    have hds : ∀ d, (ds ++ r).head? = some d → sign d = false := by
      intro d h
      rcases head_append h with h | ⟨_, h⟩
      · cases ds with
        | nil => simp at h
        | cons d' ds =>
          simp at h
          subst h
          exact (digit_class (hd d' (by simp))).2.2.2.2.2.2.1
      · exact (hr' d h).2.1
    have e3 : (accept sign ⟨buf ++ a ++ f ++ [c], sg' ++ ds ++ r⟩).2 = ⟨buf ++ a ++ f ++ [c] ++ sg', ds ++ r⟩ := by
      rcases hs with rfl | rfl | rfl
      · rw [List.nil_append, accept_no hds]
        simp
      · exact congrArg Prod.snd (accept_yes (by decide))
      · exact congrArg Prod.snd (accept_yes (by decide))
    rw [e3, acceptAll_run (fun c hc => (digit_class (hd c hc)).1) fun c hc => (hr' c hc).1]
    simp

theorem accept3_no {a b c : UInt8 → Bool} {s : St} (h : ∀ d, s.rest.head? = some d → a d = false) : accept3 a b c s = (false, s) := by
  unfold accept3
  rw [accept_no (buf := s.buf) h]

/-- the beginning of a number is taken as it is -/
theorem token_begin {q r : Bytes} (hq : Begin q) (hr : Stop r) : floatToken (q ++ r) = ⟨q, r⟩ := by
  obtain ⟨sg, a, f, x, rfl, h1, h2, h3, h4⟩ := hq
  have hx : ∀ c, (x ++ r).head? = some c → c = 101 ∨ c = 69 ∨ c = 32 := by
    intro c hc
    rcases head_append hc with h | ⟨_, h⟩
    · rcases h4 with rfl | ⟨c', _, _, rfl, h', _⟩
      · simp at h
      · simp at h
        subst h
        rcases h' with h | h <;> simp [h]
    · exact .inr (.inr (stop_head hr h))
  have hf : ∀ c, (f ++ (x ++ r)).head? = some c → c = 46 ∨ c = 101 ∨ c = 69 ∨ c = 32 := by
    intro c hc
    rcases head_append hc with h | ⟨_, h⟩
    · rcases h3 with rfl | ⟨b, rfl, _⟩
      · simp at h
      · simp at h
        exact .inl h.symm
    · exact .inr (hx c h)
  have ha : ∀ c, (a ++ (f ++ (x ++ r))).head? = some c → isDigit c = true ∨ c = 46 ∨ c = 101 ∨ c = 69 ∨ c = 32 := by
    intro c hc
    rcases head_append hc with h | ⟨_, h⟩
    · cases a with
      | nil => simp at h
      | cons d a =>
        simp at h
        subst h
        exact .inl (h2 d (by simp))
    · exact .inr (hf c h)
  have e1 : accept3 (letter 110) (letter 97) (letter 110) { rest := sg ++ (a ++ (f ++ x)) ++ r } = (false, { rest := sg ++ (a ++ (f ++ (x ++ r))) }) := by
    have : sg ++ (a ++ (f ++ x)) ++ r = sg ++ (a ++ (f ++ (x ++ r))) := by simp
    rw [this]
    refine accept3_no ?_
    intro c hc
    have hc : (sg ++ (a ++ (f ++ (x ++ r)))).head? = some c := hc
    rcases head_append hc with h | ⟨_, h⟩
    · rcases h1 with rfl | rfl | rfl <;> simp at h <;> subst h <;> decide
    · rcases ha c h with h | rfl | rfl | rfl | rfl
      · exact (digit_class h).2.1
      all_goals decide
  have e2 : (accept sign { rest := sg ++ (a ++ (f ++ (x ++ r))) }).2 = ⟨sg, a ++ (f ++ (x ++ r))⟩ := by
    rcases h1 with rfl | rfl | rfl
    · rw [List.nil_append, accept_no]
      intro c hc
      rcases ha c hc with h | rfl | rfl | rfl | rfl
      · exact (digit_class h).2.2.2.2.2.2.1
      all_goals decide
    · rfl
    · rfl
  have e3 : accept3 (letter 105) (letter 110) (letter 102) ⟨sg, a ++ (f ++ (x ++ r))⟩ = (false, ⟨sg, a ++ (f ++ (x ++ r))⟩) := by
    refine accept3_no ?_
    intro c hc
    rcases ha c hc with h | rfl | rfl | rfl | rfl
    · exact (digit_class h).2.2.1
    all_goals decide
  unfold floatToken
  simp only [e1, e2, e3]
  have hno : ∀ c, (a ++ (f ++ (x ++ r))).head? = some c → letter 120 c = false := by
    intro c hc
    rcases ha c hc with h | rfl | rfl | rfl | rfl
    · exact (digit_class h).2.2.2.1
    all_goals decide
  cases a with
  | nil =>
    rw [accept_no (by
      intro c hc
      rcases hf c hc with rfl | rfl | rfl | rfl <;> decide)]
    simp only
    exact floatRest_begin h2 h3 h4 hr
  | cons d a =>
    by_cases hd : d = 48
    · subst hd
      rw [List.cons_append, accept_yes (by decide)]
      simp only
      rw [accept_no]
      · simp only
        rw [floatRest_begin (fun c hc => h2 c (by simp [hc])) h3 h4 hr]
        simp
      · intro c hc
        rcases head_append hc with h | ⟨_, h⟩
        · cases a with
          | nil => simp at h
          | cons d' a =>
            simp at h
            subst h
            exact (digit_class (h2 d' (by simp))).2.2.2.1
        · rcases hf c h with rfl | rfl | rfl | rfl <;> decide
    · rw [accept_no (by intro c hc; simp at hc; subst hc; simpa using hd)]
      simp only
      exact floatRest_begin h2 h3 h4 hr

/-! ### texts of floats and their beginnings -/

/-- the text of a float or the beginning of one -/
def Tok (q : Bytes) : Prop :=
  Begin q ∨ q ∈ [b!"N", b!"Na", b!"NaN", b!"+I", b!"+In", b!"+Inf", b!"-I", b!"-In", b!"-Inf"]

theorem tok_token {q r : Bytes} (hq : Tok q) (hr : Stop r) : floatToken (q ++ r) = ⟨q, r⟩ := by
  rcases hq with h | h
  · exact token_begin h hr
  · simp only [List.mem_cons, List.not_mem_nil, or_false] at h
    rcases hr with rfl | ⟨t, rfl⟩
    · rcases h with rfl | rfl | rfl | rfl | rfl | rfl | rfl | rfl | rfl <;> decide +kernel
    · rcases h with rfl | rfl | rfl | rfl | rfl | rfl | rfl | rfl | rfl <;> rfl

theorem inits_of {p q : Bytes} (h : p <+: q) : p ∈ q.inits := (List.mem_inits _ _).2 h

theorem tok_prefix {p q : Bytes} (h : p <+: q) (hq : Tok q) : Tok p := by
  have b0 : Begin [] := ⟨[], [], [], [], rfl, by simp, by simp [Digits], .inl rfl, .inl rfl⟩
  have b1 : Begin [43] := ⟨[43], [], [], [], rfl, by simp, by simp [Digits], .inl rfl, .inl rfl⟩
  have b2 : Begin [45] := ⟨[45], [], [], [], rfl, by simp, by simp [Digits], .inl rfl, .inl rfl⟩
  rcases hq with hq | hq
  · exact .inl (begin_prefix h hq)
  · have : ∀ q ∈ [b!"N", b!"Na", b!"NaN", b!"+I", b!"+In", b!"+Inf", b!"-I", b!"-In", b!"-Inf"], ∀ p ∈ q.inits,
        p = [] ∨ p = [43] ∨ p = [45] ∨ p ∈ [b!"N", b!"Na", b!"NaN", b!"+I", b!"+In", b!"+Inf", b!"-I", b!"-In", b!"-Inf"] := by decide +kernel
    rcases this q hq p (inits_of h) with rfl | rfl | rfl | h
    · exact .inl b0
    · exact .inl b1
    · exact .inl b2
    · exact .inr h

/-- bytes of texts of numbers -/
def Plain (c : UInt8) : Prop := 43 ≤ c.toNat ∧ c.toNat ≤ 110

instance (c : UInt8) : Decidable (Plain c) := inferInstanceAs (Decidable (_ ∧ _))

theorem tok_plain {q : Bytes} (hq : Tok q) : ∀ c ∈ q, Plain c := by
  have hdig : ∀ c : UInt8, isDigit c = true → Plain c := by
    refine every_byte ?_
    decide +kernel
  have hd : ∀ {ds : Bytes}, Digits ds → ∀ c ∈ ds, Plain c := fun h c hc => hdig c (h c hc)
  have hs : ∀ {sg : Bytes}, sg = [] ∨ sg = [43] ∨ sg = [45] → ∀ c ∈ sg, Plain c := by
    intro sg h
    rcases h with rfl | rfl | rfl <;> decide
  rcases hq with ⟨sg, a, f, x, rfl, h1, h2, h3, h4⟩ | h
  · intro c hc
    simp only [List.mem_append] at hc
    rcases hc with hc | hc | hc | hc
    · exact hs h1 c hc
    · exact hd h2 c hc
    · rcases h3 with rfl | ⟨b, rfl, hb⟩
      · simp at hc
      · rcases List.mem_cons.1 hc with rfl | hc
        · decide
        · exact hd hb c hc
    · rcases h4 with rfl | ⟨d, sg', ds, rfl, hc', hs', hds⟩
      · simp at hc
      · rcases List.mem_cons.1 hc with rfl | hc
        · rcases hc' with rfl | rfl <;> decide
        · rcases List.mem_append.1 hc with hc | hc
          · exact hs hs' c hc
          · exact hd hds c hc
  · revert q
    decide +kernel

theorem tok_fmtG (x : UInt64) : Tok (fmtG x) := by
  by_cases h : Ieee.Finite x
  · obtain ⟨_, _, _, h, _⟩ := fmtG_means h
    exact .inl (begin_decimal h)
  · refine .inr ?_
    unfold fmtG signed
    cases hn : f64NaN x with
    | true =>
      rw [if_pos rfl]
      decide
    | false =>
      have hi : Ieee.isInf x = true := by
        cases h' : Ieee.isInf x with
        | true => rfl
        | false => exact absurd (Ieee.finite_of hn h') h
      simp only [hi, Bool.false_eq_true, if_false, if_true]
      cases Ieee.isNeg x <;> decide

/-- what the text of a float reads as -/
def canon (x : UInt64) : UInt64 := if f64NaN x then Ieee.nan else x

theorem parse_fmtG (x : UInt64) : parse64 (fmtG x) = some (canon x) := by
  by_cases h : Ieee.Finite x
  · rw [means_read h (fmtG_means h)]
    have : f64NaN x = false := by
      unfold Ieee.Finite at h
      simp only [f64NaN, decide_eq_false_iff_not]
      have : Ieee.infKey = 9218868437227405312 := rfl
      omega
    simp [canon, this]
  · exact special_texts h (fun k => if point k - 1 < -4 ∨ 6 ≤ point k - 1 then expText true (digits k) (point k) else plainText (digits k) (point k))

theorem fmtG_ne (x : UInt64) : fmtG x ≠ [] := by
  intro h
  have := parse_fmtG x
  rw [h] at this
  revert this
  simp [show parse64 [] = none by decide +kernel]

/-! ### spaces -/

theorem dec_plain {c : UInt8} (h : Plain c) (t : Bytes) : isSpace (utf8Dec (c :: t)).1 = false := by
  have : utf8Dec (c :: t) = (c.toNat, 1) := by
    have := h.2
    simp only [utf8Dec, if_pos (show c.toNat < 0x80 by omega)]
  rw [this]
  have key : ∀ c : UInt8, Plain c → isSpace c.toNat = false := by
    refine every_byte ?_
    decide +kernel
  exact key c h

theorem skip_plain {c : UInt8} (h : Plain c) (t : Bytes) : skip (c :: t) = c :: t := by
  unfold skip
  simp only [List.length_cons, skipN]
  rw [dec_plain h]
  simp

theorem skip_space (s : Bytes) : skip (32 :: s) = skip s := by
  unfold skip
  simp only [List.length_cons, skipN]
  rw [if_pos (by constructor; simp; rfl)]
  rfl

theorem skip_stop_tok {q r : Bytes} (hq : Tok q) (hn : q ≠ []) : skip (q ++ r) = q ++ r := by
  cases q with
  | nil => exact absurd rfl hn
  | cons c q => exact skip_plain (tok_plain hq c (by simp)) _

theorem convert_tok {q : Bytes} (hq : Tok q) : convertFloat q = parse64 q := by
  unfold convertFloat
  rw [if_neg]
  rintro ⟨h, _⟩
  have := tok_plain hq _ h
  revert this
  decide

theorem parse64_nil : parse64 [] = none := by decide +kernel

theorem scan_tok {q r : Bytes} (hq : Tok q) (hn : q ≠ []) (hr : Stop r) : scanFloat (q ++ r) = (parse64 q).map fun x => (x, r) := by
  unfold scanFloat
  simp only [skip_stop_tok hq hn]
  rw [if_neg (by simp [hn]), tok_token hq hr]
  simp only [convert_tok hq]
  cases parse64 q <;> rfl

theorem scan_space (s : Bytes) : scanFloat (32 :: s) = scanFloat s := by
  unfold scanFloat
  rw [skip_space]

/-- a number, or the beginning of one, at the end of a line -/
theorem scan_tok_end {q : Bytes} (hq : Tok q) : scanFloat q = (parse64 q).map fun x => (x, []) := by
  by_cases hn : q = []
  · subst hn
    rw [parse64_nil]
    rfl
  · have := scan_tok hq hn (.inl rfl)
    rwa [List.append_nil] at this

theorem cut_plain {p r : Bytes} (h : (10 : UInt8) ∉ p) : cutLine (p ++ 10 :: r) = (p, r) := by
  have h' : ∀ c ∈ p, (decide (c ≠ 10)) = true := by
    intro c hc
    simp only [decide_eq_true_eq]
    rintro rfl
    exact h hc
  unfold cutLine
  rw [List.takeWhile_append_of_pos h', List.dropWhile_append_of_pos h']
  simp

theorem cut_end {p : Bytes} (h : (10 : UInt8) ∉ p) : cutLine p = (p, []) := by
  have h' : ∀ c ∈ p, (decide (c ≠ 10)) = true := by
    intro c hc
    simp only [decide_eq_true_eq]
    rintro rfl
    exact h hc
  have a := List.takeWhile_append_of_pos (l₂ := []) h'
  have b := List.dropWhile_append_of_pos (l₂ := []) h'
  unfold cutLine
  simp only [List.append_nil] at a b
  rw [a, b]
  simp

end Verif.Scan
