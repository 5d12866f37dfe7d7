import Verif.Go.Csv
import Verif.Props.ReplaceCr
/-
encoding/csv: what the writer writes the reader reads.
-/
set_option autoImplicit false
namespace Verif.Csv

/-- what matters about a separator: it does not overlap with itself, and has no quote or end of line in it -/
structure SepOK (sep : Bytes) : Prop where
  shape : ∃ b0 bs, sep = b0 :: bs ∧ b0 ∉ bs
  quote : (34 : UInt8) ∉ sep
  lf : (10 : UInt8) ∉ sep
  cr : (13 : UInt8) ∉ sep

theorem sepOK_of_valid {c : Nat} (h : validDelim c = true) : SepOK (utf8Enc c) := by
  simp only [validDelim, Bool.and_eq_true, decide_eq_true_eq, ne_eq] at h
  obtain ⟨⟨⟨⟨⟨h0, h34⟩, h13⟩, h10⟩, hv⟩, _⟩ := h
  by_cases hc : c < 0x80
  · rw [utf8Enc_ascii hc]
    have hne : ∀ k : Nat, k < 256 → c ≠ k → UInt8.ofNat k ∉ [UInt8.ofNat c] := by
      intro k hk hck hm
      rw [List.mem_singleton] at hm
      have := congrArg UInt8.toNat hm
      rw [ofNat_toNat hk, ofNat_toNat (by omega)] at this
      exact hck this.symm
    exact ⟨⟨_, [], rfl, by simp⟩, hne 34 (by omega) h34, hne 10 (by omega) h10, hne 13 (by omega) h13⟩
  · have hh := utf8Enc_high (by omega) hv
    have hne : ∀ k : UInt8, k.toNat < 0x80 → k ∉ utf8Enc c := fun k hk hm => by have := hh k hm; omega
    refine ⟨?_, hne 34 (by decide), hne 10 (by decide), hne 13 (by decide)⟩
    have hc' : c ≤ 0x10FFFF := by rcases hv with h | h <;> omega
    have hlt : ∀ a b : Nat, a < 256 → b < 256 → a ≠ b → UInt8.ofNat a ≠ UInt8.ofNat b := by
      intro a b ha hb hab e
      have := congrArg UInt8.toNat e
      rw [ofNat_toNat ha, ofNat_toNat hb] at this
      exact hab this
    unfold utf8Enc
    rw [if_neg hc]
    split
    · exact ⟨_, _, rfl, by
        simp only [List.mem_singleton]
        exact hlt _ _ (by omega) (by omega) (by omega)⟩
    · split
      · refine ⟨_, _, rfl, ?_⟩
        simp only [List.mem_cons, List.not_mem_nil, or_false, not_or]
        exact ⟨hlt _ _ (by omega) (by omega) (by omega), hlt _ _ (by omega) (by omega) (by omega)⟩
      · refine ⟨_, _, rfl, ?_⟩
        simp only [List.mem_cons, List.not_mem_nil, or_false, not_or]
        exact ⟨hlt _ _ (by omega) (by omega) (by omega), hlt _ _ (by omega) (by omega) (by omega), hlt _ _ (by omega) (by omega) (by omega)⟩

theorem SepOK.ne_nil {sep : Bytes} (h : SepOK sep) : sep ≠ [] := by
  obtain ⟨b0, bs, rfl, _⟩ := h.shape
  simp

/-- a separator that begins inside a text ends inside it, when the text is followed by a separator or by the end of
the line -/
theorem prefix_inside {sep : Bytes} (h : SepOK sep) {c : UInt8} {f r : Bytes}
    (hr : r = [] ∨ (∃ t, r = sep ++ t) ∨ ∃ t, r = 10 :: t) : sep.isPrefixOf (c :: (f ++ r)) = true → sep.isPrefixOf (c :: f) = true := by
  intro hp
  rw [List.isPrefixOf_iff_prefix] at hp ⊢
  obtain ⟨w, hw⟩ := hp
  rw [← List.cons_append, List.append_eq_append_iff] at hw
  rcases hw with ⟨v, e, _⟩ | ⟨v, e, hv⟩
  · exact ⟨v, e.symm⟩
  · cases v with
    | nil => exact ⟨[], by rw [e]; simp⟩
    | cons d v =>
      exfalso
      obtain ⟨b0, bs, hs, hb⟩ := h.shape
      have hd : d ∈ bs := by
        rw [hs, List.cons_append, List.cons.injEq] at e
        rw [e.2]; simp
      rcases hr with rfl | ⟨t, rfl⟩ | ⟨t, rfl⟩
      · simp at hv
      · rw [hs, List.cons_append, List.cons_append, List.cons.injEq] at hv
        exact hb (hv.1 ▸ hd)
      · rw [List.cons_append, List.cons.injEq] at hv
        exact h.lf (by rw [hs, hv.1]; simp [hd])

theorem occurs_cons {sep : Bytes} {c : UInt8} {f : Bytes} (h : occurs sep (c :: f) = false) : sep.isPrefixOf (c :: f) = false ∧ occurs sep f = false := by
  simpa [occurs] using h

/-! ### one field -/

theorem prefix_sep {sep : Bytes} (r : Bytes) : sep.isPrefixOf (sep ++ r) = true := by
  rw [List.isPrefixOf_iff_prefix]; exact ⟨r, rfl⟩

theorem bare_more {sep : Bytes} (h : SepOK sep) {f : Bytes} (r : Bytes) (ho : occurs sep f = false) (hl : (10 : UInt8) ∉ f) :
    bare sep (f ++ (sep ++ r)) = (f, .more r) := by
  induction f with
  | nil =>
    obtain ⟨b0, bs, hs, _⟩ := h.shape
    have hp := prefix_sep (sep := sep) r
    have h0 : b0 ≠ 10 := fun e => h.lf (by rw [hs, e]; simp)
    rw [List.nil_append]
    rw [hs] at hp ⊢
    rw [List.cons_append, bare, if_neg h0, if_pos (by simp)]
    simp
  | cons c f ih =>
    have h' := occurs_cons ho
    have hne : sep.isPrefixOf (c :: (f ++ (sep ++ r))) = false := by
      rw [Bool.eq_false_iff]
      intro hp
      rw [prefix_inside h (.inr (.inl ⟨r, rfl⟩)) hp] at h'
      simp at h'
    rw [List.cons_append, bare, if_neg (by rintro rfl; simp at hl), hne, ih h'.2 (by simp at hl; exact hl.2)]
    simp

theorem bare_done {sep : Bytes} (h : SepOK sep) {f : Bytes} (r : Bytes) (ho : occurs sep f = false) (hl : (10 : UInt8) ∉ f) :
    bare sep (f ++ 10 :: r) = (f, .done r) := by
  induction f with
  | nil => simp [bare]
  | cons c f ih =>
    have h' := occurs_cons ho
    have hne : sep.isPrefixOf (c :: (f ++ 10 :: r)) = false := by
      rw [Bool.eq_false_iff]
      intro hp
      rw [prefix_inside h (.inr (.inr ⟨r, rfl⟩)) hp] at h'
      simp at h'
    rw [List.cons_append, bare, if_neg (by rintro rfl; simp at hl), hne, ih h'.2 (by simp at hl; exact hl.2)]
    simp

theorem quoted_ne {sep : Bytes} {lazy : Bool} {c : UInt8} (h : c ≠ 34) (s : Bytes) :
    quoted sep lazy (c :: s) = (c :: (quoted sep lazy s).1, (quoted sep lazy s).2) := by
  rw [quoted.eq_def]
  simp [h]

theorem quoted_more {sep : Bytes} (h : SepOK sep) (lazy : Bool) (f r : Bytes) :
    quoted sep lazy (dbl f ++ 34 :: (sep ++ r)) = (f, .more r) := by
  induction f with
  | nil =>
    obtain ⟨b0, bs, hs, _⟩ := h.shape
    have hp := prefix_sep (sep := sep) r
    have h0 : b0 ≠ 34 := fun e => h.quote (by rw [hs, e]; simp)
    rw [dbl, List.nil_append]
    rw [hs] at hp ⊢
    rw [List.cons_append, quoted, if_neg (by simp)]
    simp only [h0, if_false]
    rw [if_pos (by simp)]
    simp
  | cons c f ih =>
    by_cases hc : c = 34
    · subst hc
      rw [dbl, if_pos rfl, List.cons_append, List.cons_append, quoted, if_neg (by simp)]
      simp [ih]
    · rw [dbl, if_neg hc, List.cons_append, quoted_ne hc, ih]

theorem quoted_done {sep : Bytes} (h : SepOK sep) (lazy : Bool) (f r : Bytes) :
    quoted sep lazy (dbl f ++ 34 :: 10 :: r) = (f, .done r) := by
  induction f with
  | nil =>
    obtain ⟨b0, bs, hs, _⟩ := h.shape
    have h0 : b0 ≠ 10 := fun e => h.lf (by rw [hs, e]; simp)
    have hp : sep.isPrefixOf (10 :: r) = false := by rw [hs]; simp [List.isPrefixOf, h0]
    rw [dbl, List.nil_append, quoted, if_neg (by simp)]
    simp [hp]
  | cons c f ih =>
    by_cases hc : c = 34
    · subst hc
      rw [dbl, if_pos rfl, List.cons_append, List.cons_append, quoted, if_neg (by simp)]
      simp [ih]
    · rw [dbl, if_neg hc, List.cons_append, quoted_ne hc, ih]

/-- a field that needs no quotes -/
theorem unquoted_facts {sep f : Bytes} (h : SepOK sep) (hq : needsQuotes sep f = false) :
    occurs sep f = false ∧ (34 : UInt8) ∉ f ∧ (13 : UInt8) ∉ f ∧ (10 : UInt8) ∉ f := by
  unfold needsQuotes at hq
  split at hq
  · rename_i e
    subst e
    refine ⟨?_, by simp⟩
    obtain ⟨b0, bs, rfl, _⟩ := h.shape
    rfl
  · split at hq
    · simp at hq
    · split at hq
      · simp at hq
      · rename_i hn
        simp only [Bool.or_eq_true, not_or, List.any_eq_true, not_exists, not_and, Bool.not_eq_true, decide_eq_true_eq] at hn
        refine ⟨hn.1, ?_, ?_, ?_⟩ <;> intro hm <;> exact absurd (hn.2 _ hm) (by simp)

theorem field_bare {sep : Bytes} {lazy : Bool} {s f : Bytes} {e : End} (hs : s.head? ≠ some 34) (hb : bare sep s = (f, e)) (hf : (34 : UInt8) ∉ f) :
    field sep lazy s = (f, e) := by
  have hc : f.contains 34 = false := by simpa using hf
  unfold field
  split
  · simp at hs
  · rw [hb]
    simp only [hc, Bool.and_false, Bool.false_eq_true, if_false]

theorem field_more {sep : Bytes} (h : SepOK sep) (lazy : Bool) (f r : Bytes) : field sep lazy (fieldText sep f ++ (sep ++ r)) = (f, .more r) := by
  unfold fieldText
  split
  · rw [List.cons_append, List.append_assoc, field, List.singleton_append, quoted_more h]
  · rename_i hq
    obtain ⟨ho, h34, _, h10⟩ := unquoted_facts h (by simpa using hq)
    refine field_bare ?_ (bare_more h r ho h10) h34
    cases f with
    | nil =>
      obtain ⟨b0, bs, hs, _⟩ := h.shape
      rw [hs]
      simp only [List.nil_append, List.cons_append, List.head?_cons, ne_eq, Option.some.injEq]
      exact fun e => h.quote (by rw [hs, e]; simp)
    | cons c f =>
      simp only [List.cons_append, List.head?_cons, ne_eq, Option.some.injEq]
      rintro rfl; simp at h34

theorem field_done {sep : Bytes} (h : SepOK sep) (lazy : Bool) (f r : Bytes) : field sep lazy (fieldText sep f ++ 10 :: r) = (f, .done r) := by
  unfold fieldText
  split
  · rw [List.cons_append, List.append_assoc, field, List.singleton_append, quoted_done h]
  · rename_i hq
    obtain ⟨ho, h34, _, h10⟩ := unquoted_facts h (by simpa using hq)
    refine field_bare ?_ (bare_done h r ho h10) h34
    cases f with
    | nil => simp
    | cons c f =>
      simp only [List.cons_append, List.head?_cons, ne_eq, Option.some.injEq]
      rintro rfl; simp at h34

/-! ### one record -/

theorem trimF_length (n : Nat) (s : Bytes) : (trimF n s).length ≤ s.length := by
  induction n generalizing s with
  | zero => simp [trimF]
  | succ n ih =>
    cases s with
    | nil => simp [trimF]
    | cons c s =>
      rw [trimF]
      split
      · simp
      · split
        · exact Nat.le_trans (ih _) (by rw [List.length_drop]; omega)
        · simp

theorem lead_length (trim : Bool) (s : Bytes) : (lead trim s).length ≤ s.length := by
  unfold lead
  split
  · exact trimF_length _ s
  · exact Nat.le_refl _

theorem trimF_same (n : Nat) (c : UInt8) (s : Bytes) (h : c = 10 ∨ isSpace (utf8Dec (c :: s)).1 = false) : trimF n (c :: s) = c :: s := by
  cases n with
  | zero => rfl
  | succ n =>
    rw [trimF]
    rcases h with h | h
    · rw [if_pos h]
    · split
      · rfl
      · rw [if_neg (by rw [h]; simp)]

theorem lead_same (trim : Bool) (c : UInt8) (s : Bytes) (h : c = 10 ∨ isSpace (utf8Dec (c :: s)).1 = false) : lead trim (c :: s) = c :: s := by
  unfold lead
  split
  · exact trimF_same _ c s h
  · rfl

/-- what follows a field does not change its first code point -/
theorem dec_append {f : Bytes} (hf : f ≠ []) {b : UInt8} (hb : b.toNat < 0x80) (r : Bytes) : (utf8Dec (f ++ b :: r)).1 = (utf8Dec f).1 := by
  have hr : ∀ lo hi, 0x80 ≤ lo → inRange lo hi b = false := by
    intro lo hi hlo; simp only [inRange, Bool.and_eq_false_iff, decide_eq_false_iff_not]; omega
  have h0 : ∀ hi, inRange 0x80 hi b = false := fun hi => hr _ hi (by omega)
  have h1 : ∀ n hi, inRange (if n = 0xE0 then 0xA0 else 0x80) hi b = false := fun n hi => hr _ hi (by split <;> omega)
  have h2 : ∀ n hi, inRange (if n = 0xF0 then 0x90 else 0x80) hi b = false := fun n hi => hr _ hi (by split <;> omega)
  match f, hf with
  | b0 :: [], _ =>
    simp only [List.cons_append, List.nil_append, utf8Dec]
    split
    · rfl
    · split
      · simp only [h0, Bool.false_eq_true, if_false]
      · split
        · cases r <;> simp only [h1, Bool.false_eq_true, if_false, Bool.false_and]
        · split
          · cases r with
            | nil => rfl
            | cons r0 r => cases r <;> simp only [h2, Bool.false_eq_true, if_false, Bool.false_and]
          · rfl
  | b0 :: b1 :: [], _ =>
    simp only [List.cons_append, List.nil_append, utf8Dec]
    split
    · rfl
    · split
      · rfl
      · split
        · simp only [h0, Bool.false_eq_true, if_false, Bool.and_false]
        · split
          · cases r <;> simp only [h0, Bool.false_eq_true, if_false, Bool.and_false, Bool.false_and]
          · rfl
  | b0 :: b1 :: b2 :: [], _ =>
    simp only [List.cons_append, List.nil_append, utf8Dec]
    split
    · rfl
    · split
      · rfl
      · split
        · rfl
        · split
          · simp only [h0, Bool.false_eq_true, if_false, Bool.and_false]
          · rfl
  | b0 :: b1 :: b2 :: b3 :: f, _ =>
    simp only [List.cons_append, utf8Dec]

/-- a written field has no leading space to trim -/
theorem lead_fieldText (trim : Bool) (sep f : Bytes) {b : UInt8} (hb : b.toNat < 0x80) (hs : trim = true → isSpace b.toNat = false ∨ b = 10) (r : Bytes) :
    lead trim (fieldText sep f ++ b :: r) = fieldText sep f ++ b :: r := by
  cases trim with
  | false => rfl
  | true =>
    have hs := hs rfl
    unfold fieldText
    split
    · exact lead_same _ _ _ (.inr rfl)
    · rename_i hq
      cases f with
      | nil =>
        apply lead_same
        rcases hs with hs | hs
        · right
          simp only [utf8Dec, if_pos hb, hs]
        · exact .inl hs
      | cons c f =>
        apply lead_same
        right
        have := dec_append (f := c :: f) (by simp) hb r
        refine (congrArg isSpace this).trans ?_
        simp only [Bool.not_eq_true] at hq
        unfold needsQuotes at hq
        rw [if_neg (by simp)] at hq
        split at hq
        · simp at hq
        · split at hq
          · simp at hq
          · exact hq

theorem fields_text {sep : Bytes} (h : SepOK sep) (trim lazy : Bool) (fs : List Bytes) (hne : fs ≠ []) (r : Bytes) (n : Nat) (hn : fs.length ≤ n)
    (hsp : trim = true → sep = [44]) :
    fields sep trim lazy n (recordText sep fs ++ r) = (fs, none, r) := by
  induction fs generalizing n with
  | nil => exact absurd rfl hne
  | cons f fs ih =>
    cases n with
    | zero => simp at hn
    | succ n =>
      cases fs with
      | nil =>
        simp only [recordText, joined, List.append_assoc, List.singleton_append]
        rw [fields, lead_fieldText trim sep f (by decide) (fun _ => .inr rfl), field_done h]
      | cons g gs =>
        have e : recordText sep (f :: g :: gs) ++ r = fieldText sep f ++ (sep ++ (recordText sep (g :: gs) ++ r)) := by
          simp [recordText, joined]
        have hl : lead trim (fieldText sep f ++ (sep ++ (recordText sep (g :: gs) ++ r))) = fieldText sep f ++ (sep ++ (recordText sep (g :: gs) ++ r)) := by
          cases trim with
          | false => rfl
          | true =>
            rw [hsp rfl]
            exact lead_fieldText true _ f (by decide) (fun _ => .inl (by decide)) _
        rw [e, fields, hl, field_more h]
        simp only [ih (by simp) n (by simpa using hn)]

theorem joined_length {sep : Bytes} (h : SepOK sep) (fs : List Bytes) : fs.length ≤ (joined sep fs).length + 1 := by
  induction fs with
  | nil => simp
  | cons f fs ih =>
    cases fs with
    | nil => simp
    | cons g gs =>
      have : 0 < sep.length := List.length_pos_iff.mpr h.ne_nil
      simp only [joined, List.length_append, List.length_cons] at ih ⊢
      omega

/-- a record that is written as an empty line -/
def blank (fs : List Bytes) : Bool := fs = [] || fs = [[]]

theorem record_head {sep : Bytes} (h : SepOK sep) {fs : List Bytes} (hb : blank fs = false) : ∃ c t, recordText sep fs = c :: t ∧ c ≠ 10 := by
  simp only [blank, Bool.or_eq_false_iff, decide_eq_false_iff_not] at hb
  match fs with
  | [] => simp at hb
  | f :: fs =>
    by_cases hq : needsQuotes sep f = true
    · cases fs <;> simp [recordText, joined, fieldText, hq]
    · obtain ⟨ho, h34, _, h10⟩ := unquoted_facts h (by simpa using hq)
      cases f with
      | nil =>
        cases fs with
        | nil => simp at hb
        | cons g gs =>
          obtain ⟨b0, bs, hs, _⟩ := h.shape
          refine ⟨b0, bs ++ recordText sep (g :: gs), ?_, fun e => h.lf (by rw [hs, e]; simp)⟩
          simp [recordText, joined, fieldText, needsQuotes, hs]
      | cons c f =>
        have : c ≠ 10 := by rintro rfl; simp at h10
        cases fs <;> simp [recordText, joined, fieldText, hq, this]

theorem skipBlank_cons {c : UInt8} (h : c ≠ 10) (t : Bytes) : skipBlank (c :: t) = c :: t := by
  unfold skipBlank
  split
  · rename_i e; simp at e; exact absurd e.1 h
  · rfl

/-- reading a record that was written -/
theorem read_written {c : Cfg} (hv : validDelim c.comma = true) {fs : List Bytes} (hb : blank fs = false) (r : Bytes) (n : Int)
    (htr : c.trim = true → c.comma = 44 := by intro h; cases h) :
    read c { rest := recordText (utf8Enc c.comma) fs ++ r, fpr := n } =
      (if 0 < n ∧ (fs.length : Int) ≠ n then .error .fieldCount else .ok fs, { rest := r, fpr := if n = 0 then (fs.length : Int) else n }) := by
  have h := sepOK_of_valid hv
  obtain ⟨a, t, ht, ha⟩ := record_head h hb
  have hne : fs ≠ [] := by rintro rfl; simp [blank] at hb
  have hsk : skipBlank (recordText (utf8Enc c.comma) fs ++ r) = recordText (utf8Enc c.comma) fs ++ r := by
    rw [ht, List.cons_append, skipBlank_cons ha]
  have hlen : fs.length ≤ (recordText (utf8Enc c.comma) fs ++ r).length + 1 := by
    have := joined_length h fs
    simp only [recordText, List.length_append, List.length_singleton]
    omega
  have hf := fields_text h c.trim c.lazy fs hne r _ hlen (fun ht => by rw [htr ht]; rfl)
  unfold read
  simp only [hv, Bool.not_true, Bool.false_eq_true, if_false, hsk]
  split
  · rename_i e; rw [ht] at e; simp at e
  · rw [hf]

theorem read_record {c : Cfg} (hv : validDelim c.comma = true) {fs : List Bytes} (hb : blank fs = false) (r : Bytes) (n : Int)
    (hn : n ≤ 0 ∨ n = fs.length) (htr : c.trim = true → c.comma = 44 := by intro h; cases h) :
    read c { rest := recordText (utf8Enc c.comma) fs ++ r, fpr := n } = (.ok fs, { rest := r, fpr := if n = 0 then (fs.length : Int) else n }) := by
  rw [read_written hv hb r n htr, if_neg]
  rintro ⟨h1, h2⟩
  rcases hn with hn | hn
  · omega
  · exact h2 hn.symm

theorem read_blank (c : Cfg) (r : Bytes) (n : Int) : read c { rest := 10 :: r, fpr := n } = read c { rest := r, fpr := n } ∨ validDelim c.comma = false := by
  by_cases hv : validDelim c.comma = true
  · left
    have : skipBlank (10 :: r) = skipBlank r := rfl
    simp only [read, this, hv, Bool.not_true, Bool.false_eq_true, if_false]
  · right; simpa using hv

theorem recordText_blank {sep : Bytes} {fs : List Bytes} (h : blank fs = true) : recordText sep fs = [10] := by
  simp only [blank, Bool.or_eq_true, decide_eq_true_eq] at h
  rcases h with rfl | rfl
  · rfl
  · simp [recordText, joined, fieldText, needsQuotes]

/-! ### ends of lines -/

/-- CR LF and CR become LF -/
def univ : Bytes → Bytes
  | [] => []
  | c :: s => if c = 13 then (if s.head? = some 10 then univ s else 10 :: univ s) else c :: univ s

open ReplaceCr in
/-- repaired and normalised -/
theorem norm_fix (s : Bytes) : norm (fix true s) = univ s := by
  induction s with
  | nil => rfl
  | cons c s ih =>
    rw [fix_cons, univ]
    by_cases hc : c = 13
    · subst hc
      cases s with
      | nil => rfl
      | cons d s =>
        by_cases hd : d = 10
        · subst hd
          have e : fix true (10 :: s) = 10 :: fix true s := by
            rw [fix_cons, if_neg (by simp)]
          rw [if_neg (by simp [lone]), if_pos rfl, if_pos (by simp), ← ih, e, norm, if_pos (by simp)]
        · rw [if_pos ⟨rfl, by simp [lone, hd]⟩, if_pos rfl, if_neg (by simp [hd]), norm, if_pos (by simp), norm, if_neg (by simp), ih]
    · rw [if_neg (by simp [hc]), norm, if_neg (by simp [hc]), if_neg hc, ih]

theorem norm_nocr {s : Bytes} (h : (13 : UInt8) ∉ s) : norm s = s := by
  induction s with
  | nil => rfl
  | cons c s ih =>
    simp only [List.mem_cons, not_or] at h
    rw [norm, if_neg (fun e => h.1 e.1.symm), ih h.2]

theorem univ_nocr {s : Bytes} (h : (13 : UInt8) ∉ s) : univ s = s := by
  induction s with
  | nil => rfl
  | cons c s ih =>
    simp only [List.mem_cons, not_or] at h
    rw [univ, if_neg (Ne.symm h.1), ih h.2]

theorem univ_crlf {d : UInt8} (s : Bytes) (h : d = 10) : univ (13 :: d :: s) = univ (d :: s) := by
  rw [univ, if_pos rfl, if_pos (by simp [h])]

theorem univ_cr {d : UInt8} (s : Bytes) (h : d ≠ 10) : univ (13 :: d :: s) = 10 :: univ (d :: s) := by
  rw [univ, if_pos rfl, if_neg (by simp [h])]

theorem univ_append (s t : Bytes) (h : t.head? ≠ some 10 ∨ s.getLast? ≠ some 13) : univ (s ++ t) = univ s ++ univ t := by
  induction s with
  | nil => rfl
  | cons c s ih =>
    have ih := ih (by
      rcases h with h | h
      · exact .inl h
      · right
        cases s with
        | nil => simp
        | cons d s => simpa using h)
    rw [List.cons_append]
    by_cases hc : c = 13
    · subst hc
      cases s with
      | nil =>
        cases t with
        | nil => rfl
        | cons d t =>
          have hd : d ≠ 10 := by rcases h with h | h <;> simp at h; exact h
          simp [univ, hd]
      | cons d s =>
        by_cases hd : d = 10
        · rw [univ_crlf _ hd, List.cons_append, univ_crlf _ hd, ← List.cons_append, ih]
        · rw [univ_cr _ hd, List.cons_append, univ_cr _ hd, ← List.cons_append, ih, List.cons_append]
    · rw [univ, if_neg hc, univ, if_neg hc, ih, List.cons_append]

theorem univ_dbl (f : Bytes) : univ (dbl f) = dbl (univ f) := by
  induction f with
  | nil => rfl
  | cons c f ih =>
    rw [dbl]
    by_cases hq : c = 34
    · subst hq
      simp [univ, dbl, ih]
    · rw [if_neg hq]
      by_cases hc : c = 13
      · subst hc
        cases f with
        | nil => rfl
        | cons d f =>
          have e : ∃ t, dbl (d :: f) = d :: t := by
            by_cases hd : d = 34
            · exact ⟨34 :: dbl f, by rw [dbl, if_pos hd, hd]⟩
            · exact ⟨dbl f, by rw [dbl, if_neg hd]⟩
          obtain ⟨t, ht⟩ := e
          rw [ht] at ih ⊢
          by_cases hd : d = 10
          · rw [univ_crlf _ hd, univ_crlf _ hd, ih]
          · rw [univ_cr _ hd, univ_cr _ hd, ih, dbl, if_neg (by decide)]
      · rw [univ, if_neg hc, ih, univ, if_neg hc, dbl, if_neg hq]

theorem univ_lf {f : Bytes} (h : (13 : UInt8) ∈ f) : (10 : UInt8) ∈ univ f := by
  induction f with
  | nil => simp at h
  | cons c f ih =>
    rw [univ]
    split
    · split
      · rename_i hd
        cases f with
        | nil => simp at hd
        | cons d f =>
          simp only [List.head?_cons, Option.some.injEq] at hd
          subst hd
          simp [univ]
      · simp
    · rename_i hc
      simp only [List.mem_cons] at h
      rcases h with h | h
      · exact absurd h.symm hc
      · simp [ih h]

theorem needsQuotes_special {sep f : Bytes} {c : UInt8} (hc : c = 34 ∨ c = 13 ∨ c = 10) (h : c ∈ f) : needsQuotes sep f = true := by
  unfold needsQuotes
  rw [if_neg (by rintro rfl; simp at h)]
  split
  · rfl
  · rw [if_pos]
    simp only [Bool.or_eq_true, List.any_eq_true]
    right
    exact ⟨c, h, by rcases hc with rfl | rfl | rfl <;> decide⟩

theorem univ_fieldText (sep f : Bytes) : univ (fieldText sep f) = fieldText sep (univ f) := by
  by_cases h : (13 : UInt8) ∈ f
  · rw [fieldText, if_pos (needsQuotes_special (.inr (.inl rfl)) h), fieldText, if_pos (needsQuotes_special (.inr (.inr rfl)) (univ_lf h)),
      univ, if_neg (by decide), univ_append _ _ (.inl (by decide)), univ_dbl]
    rfl
  · rw [univ_nocr h, fieldText]
    split
    · have : (13 : UInt8) ∉ dbl f := by
        rename_i hq
        clear hq
        induction f with
        | nil => simp [dbl]
        | cons c f ih =>
          simp only [List.mem_cons, not_or] at h
          rw [dbl]
          split <;> simp [ih h.2, h.1]
      rw [univ_nocr]
      simp [this]
    · exact univ_nocr h

theorem fieldText_last (sep f : Bytes) : (fieldText sep f).getLast? ≠ some 13 := by
  unfold fieldText
  split
  · rw [← List.cons_append, List.getLast?_append]; simp
  · rename_i hq
    intro h
    have := List.mem_of_getLast? h
    exact hq (needsQuotes_special (.inr (.inl rfl)) this)

theorem univ_joined {sep : Bytes} (h : SepOK sep) (fs : List Bytes) : univ (joined sep fs) = joined sep (fs.map univ) := by
  induction fs with
  | nil => rfl
  | cons f fs ih =>
    cases fs with
    | nil => exact univ_fieldText sep f
    | cons g gs =>
      have hl : (fieldText sep f ++ sep).getLast? ≠ some 13 := by
        intro e
        rw [List.getLast?_append] at e
        cases hs : sep.getLast? with
        | none => rw [hs] at e; exact fieldText_last sep f (by simpa using e)
        | some c =>
          rw [hs] at e
          simp only [Option.some_or, Option.some.injEq] at e
          subst e
          exact h.cr (List.mem_of_getLast? hs)
      rw [joined, univ_append _ _ (.inr hl), univ_append _ _ (.inr (fieldText_last sep f)), ih, univ_fieldText, univ_nocr h.cr]
      · rfl
      · simp

theorem joined_last {sep : Bytes} (h : SepOK sep) (fs : List Bytes) : (joined sep fs).getLast? ≠ some 13 := by
  induction fs with
  | nil => simp [joined]
  | cons f fs ih =>
    cases fs with
    | nil => exact fieldText_last sep f
    | cons g gs =>
      rw [joined]
      · intro e
        rw [List.getLast?_append] at e
        cases hs : (joined sep (g :: gs)).getLast? with
        | some c =>
          rw [hs] at e ih
          simp only [Option.some_or] at e
          exact ih e
        | none =>
          rw [hs, Option.none_or, List.getLast?_append] at e
          cases hs : sep.getLast? with
          | none => rw [hs] at e; exact fieldText_last sep f (by simpa using e)
          | some c =>
            rw [hs] at e
            simp only [Option.some_or, Option.some.injEq] at e
            subst e
            exact h.cr (List.mem_of_getLast? hs)
      · simp

/-- normalising written records is writing normalised records -/
theorem univ_recordText {sep : Bytes} (h : SepOK sep) (fs : List Bytes) (r : Bytes) :
    univ (recordText sep fs ++ r) = recordText sep (fs.map univ) ++ univ r := by
  rw [recordText, List.append_assoc, univ_append _ _ (.inr (joined_last h fs)), univ_joined h, List.singleton_append, univ, if_neg (by decide)]
  simp [recordText]

theorem univ_eq_nil {f : Bytes} : univ f = [] ↔ f = [] := by
  induction f with
  | nil => simp [univ]
  | cons c f ih =>
    rw [univ]
    split
    · split
      · rename_i hd
        rw [ih]
        cases f with
        | nil => simp at hd
        | cons d f => simp
      · simp
    · simp

theorem blank_univ (fs : List Bytes) : blank (fs.map univ) = blank fs := by
  match fs with
  | [] => rfl
  | [f] => simp [blank, univ_eq_nil]
  | f :: g :: l => simp [blank]

/-! ### progress -/

theorem dropLine_length (s : Bytes) : (dropLine s).length ≤ s.length ∧ (s ≠ [] → (dropLine s).length < s.length) := by
  induction s with
  | nil => simp [dropLine]
  | cons c s ih =>
    rw [dropLine]
    split
    · simp
    · simp only [List.length_cons]; omega

/-- what is left at the end of a field -/
def End.rest : End → Bytes
  | .more r => r
  | .done r => r
  | .err _ r => r

theorem bare_length {sep : Bytes} (h : sep ≠ []) (s : Bytes) :
    (bare sep s).2.rest.length ≤ s.length ∧ (s ≠ [] → (bare sep s).2.rest.length < s.length) := by
  have hs : 0 < sep.length := by cases sep <;> simp at h ⊢
  induction s with
  | nil => simp [bare, End.rest]
  | cons c s ih =>
    rw [bare]
    split
    · simp [End.rest]
    · split
      · simp only [End.rest, List.length_drop, List.length_cons]; omega
      · simp only [List.length_cons]; omega

theorem quoted_length {sep : Bytes} (h : sep ≠ []) (lazy : Bool) (s : Bytes) : (quoted sep lazy s).2.rest.length ≤ s.length := by
  have hs : 0 < sep.length := by cases sep <;> simp at h ⊢
  suffices H : ∀ n (s : Bytes), s.length ≤ n → (quoted sep lazy s).2.rest.length ≤ s.length from H _ s (Nat.le_refl _)
  intro n
  induction n with
  | zero =>
    intro s hs
    cases s with
    | nil => rw [quoted.eq_def]; simp only; split <;> simp [End.rest]
    | cons => simp at hs
  | succ n ih =>
    intro s hn
    cases s with
    | nil => rw [quoted.eq_def]; simp only; split <;> simp [End.rest]
    | cons c s =>
      simp only [List.length_cons] at hn
      rw [quoted.eq_def]
      simp only
      split
      · have := ih s (by omega)
        simp only [List.length_cons]; omega
      · cases s with
        | nil => simp [End.rest]
        | cons d t =>
          simp only [List.length_cons] at hn
          simp only
          split
          · have := ih t (by omega)
            simp only [List.length_cons]; omega
          · split
            · simp only [End.rest, List.length_drop, List.length_cons]; omega
            · split
              · simp only [End.rest, List.length_cons]; omega
              · split
                · have := ih (d :: t) (by simp; omega)
                  simp only [List.length_cons] at this ⊢; omega
                · have := (dropLine_length (d :: t)).1
                  simp only [End.rest, List.length_cons] at this ⊢; omega

theorem field_length {sep : Bytes} (h : sep ≠ []) (lazy : Bool) (s : Bytes) :
    (field sep lazy s).2.rest.length ≤ s.length ∧ (s ≠ [] → (field sep lazy s).2.rest.length < s.length) := by
  unfold field
  split
  · rename_i t
    have := quoted_length h lazy t
    simp only [List.length_cons]; omega
  · split
    · exact dropLine_length s
    · exact bare_length h s

theorem fields_length {sep : Bytes} (h : sep ≠ []) (trim lazy : Bool) (n : Nat) (s : Bytes) :
    (fields sep trim lazy n s).2.2.length ≤ s.length ∧ (s ≠ [] → 0 < n → (fields sep trim lazy n s).2.2.length < s.length) := by
  induction n generalizing s with
  | zero => simp [fields]
  | succ n ih =>
    have hl := lead_length trim s
    have hf : (field sep lazy (lead trim s)).2.rest.length ≤ s.length ∧ (s ≠ [] → (field sep lazy (lead trim s)).2.rest.length < s.length) := by
      have := field_length h lazy (lead trim s)
      refine ⟨by omega, fun hs => ?_⟩
      by_cases hn : lead trim s = []
      · rw [hn] at this ⊢
        have h0 := List.length_pos_iff.mpr hs
        simp only [List.length_nil] at this
        omega
      · have := this.2 hn
        omega
    rw [fields]
    split <;> rename_i e <;> rw [e] at hf <;> simp only [End.rest] at hf
    · rename_i r
      have := (ih r).1
      exact ⟨by simp only; omega, fun h1 _ => by have := hf.2 h1; simp only; omega⟩
    · exact ⟨hf.1, fun h1 _ => hf.2 h1⟩
    · exact ⟨hf.1, fun h1 _ => hf.2 h1⟩

theorem skipBlank_length (s : Bytes) : (skipBlank s).length ≤ s.length := by
  induction s with
  | nil => simp [skipBlank]
  | cons c s ih =>
    unfold skipBlank
    split
    · rename_i e
      simp only [List.cons.injEq] at e
      rw [← e.2]
      simp only [List.length_cons]; omega
    · simp

/-- every call takes something, or says that the end is reached -/
theorem read_progress {c : Cfg} (hv : validDelim c.comma = true) (st : RState) :
    ((read c st).1 = .error .eof ∧ (read c st).2.rest = []) ∨ (read c st).2.rest.length < st.rest.length := by
  have hne : utf8Enc c.comma ≠ [] := (sepOK_of_valid hv).ne_nil
  unfold read
  simp only [hv, Bool.not_true, Bool.false_eq_true, if_false]
  split
  · exact .inl ⟨rfl, rfl⟩
  · rename_i s hs
    right
    have h1 := (fields_length hne c.trim c.lazy ((skipBlank st.rest).length + 1) (skipBlank st.rest)).2 (fun e => hs e) (by omega)
    have h2 := skipBlank_length st.rest
    simp only
    omega

theorem read_eof (c : Cfg) (st : RState) (h : (read c st).1 = .error .eof) : (read c st).2.rest = [] := by
  unfold read at h ⊢
  split at h
  · cases h
  · rename_i hv
    rw [if_neg hv]
    split at h
    · rename_i e; simp
    · rename_i s hs
      exfalso
      simp only at h
      split at h
      · rename_i e he
        simp only [Except.error.injEq] at h
        subst h
        have hq : ∀ (sep : Bytes) (lazy : Bool) (s f r : Bytes), quoted sep lazy s ≠ (f, .err .eof r) := by
          intro sep lazy s
          suffices H : ∀ n (s : Bytes), s.length ≤ n → ∀ f r, quoted sep lazy s ≠ (f, .err .eof r) from fun f r => H _ s (Nat.le_refl _) f r
          intro n
          induction n with
          | zero =>
            intro s hs f r
            cases s with
            | nil => rw [quoted.eq_def]; simp only; split <;> simp
            | cons => simp at hs
          | succ n ih =>
            intro s hn f r
            cases s with
            | nil => rw [quoted.eq_def]; simp only; split <;> simp
            | cons c s =>
              simp only [List.length_cons] at hn
              rw [quoted.eq_def]
              simp only
              split
              · intro e; simp only [Prod.mk.injEq] at e; exact ih s (by omega) _ r (Prod.ext rfl e.2)
              · cases s with
                | nil => simp
                | cons d t =>
                  simp only [List.length_cons] at hn
                  simp only
                  split
                  · intro e; simp only [Prod.mk.injEq] at e; exact ih t (by omega) _ r (Prod.ext rfl e.2)
                  · split
                    · simp
                    · split
                      · simp
                      · split
                        · intro e; simp only [Prod.mk.injEq] at e; exact ih (d :: t) (by simp; omega) _ r (Prod.ext rfl e.2)
                        · simp
        have hb : ∀ (sep s f r : Bytes), bare sep s ≠ (f, .err .eof r) := by
          intro sep s
          induction s with
          | nil => simp [bare]
          | cons c s ih =>
            intro f r
            rw [bare]
            split
            · simp
            · split
              · simp
              · intro e; simp only [Prod.mk.injEq] at e; exact ih _ r (Prod.ext rfl e.2)
        have hf : ∀ (sep : Bytes) (lazy : Bool) (s f r : Bytes), field sep lazy s ≠ (f, .err .eof r) := by
          intro sep lazy s f r
          unfold field
          split
          · exact hq sep lazy _ f r
          · split
            · simp
            · exact hb sep _ f r
        have hfs : ∀ (sep : Bytes) (trim lazy : Bool) (n : Nat) (s : Bytes), (fields sep trim lazy n s).2.1 ≠ some .eof := by
          intro sep trim lazy n
          induction n with
          | zero => simp [fields]
          | succ n ih =>
            intro s
            rw [fields]
            split
            · exact ih _
            · simp
            · rename_i f e r he
              intro h
              simp only [Option.some.injEq] at h
              subst h
              exact hf sep lazy _ _ _ he
        exact hfs _ _ _ _ _ he
      · split at h <;> cases h

end Verif.Csv
