import Verif.Spec.JsonSays
import Verif.Props.Ndjson
import Verif.Props.JsonOthers
import Verif.Lemmas.JsonTreeParse
import Verif.Lemmas.Scan
/- C89: newline-delimited JSON that others wrote. -/
set_option autoImplicit false
namespace Verif.Ndjson
open JsonStd JsonG Streams

/-! ### Strings -/

theorem hex4_of {a b c d : UInt8} {n : Nat} (h : Hex4 a b c d n) : hex4 a b c d = n := by
  obtain ⟨n1, n2, n3, n4, h1, h2, h3, h4, rfl⟩ := h
  simp [hex4, h1, h2, h3, h4]

theorem escChar_of {e c : UInt8} (h : (e, c) ∈ escapes) : escChar e = c ∧ e ≠ 117 := by
  simp only [escapes, List.mem_cons, Prod.mk.injEq, List.not_mem_nil, or_false] at h
  rcases h with ⟨rfl, rfl⟩ | ⟨rfl, rfl⟩ | ⟨rfl, rfl⟩ | ⟨rfl, rfl⟩ | ⟨rfl, rfl⟩ | ⟨rfl, rfl⟩ | ⟨rfl, rfl⟩ | ⟨rfl, rfl⟩ <;> decide

theorem reads_hex {s t : Bytes} (h : StrReads s t) {a b c d : UInt8} {r : Bytes} (e : t = 92 :: 117 :: a :: b :: c :: d :: r) : ∃ n, Hex4 a b c d n := by
  cases h with
  | nil => cases e
  | plain c _ _ h3 _ => cases e; exact absurd rfl h3
  | esc e' c h1 _ => cases e; exact absurd rfl (escChar_of h1).2
  | uni _ _ _ _ n h1 _ _ => cases e; exact ⟨n, h1⟩
  | pair _ _ _ _ _ _ _ _ n _ h1 _ _ _ _ _ _ => cases e; exact ⟨n, h1⟩
  | low _ _ _ _ n h1 _ _ _ => cases e; exact ⟨n, h1⟩
  | high _ _ _ _ n h1 _ _ _ _ => cases e; exact ⟨n, h1⟩

theorem reads_unescape {s t : Bytes} (h : StrReads s t) : unescape t = s := by
  induction h with
  | nil => simp [unescape]
  | plain c _ _ h3 _ ih => rw [unescape.eq_def]; simp [h3, ih]
  | esc e c h1 _ ih =>
    obtain ⟨h2, h3⟩ := escChar_of h1
    rw [unescape.eq_def]; simp [h2, h3, ih]
  | uni a b c d n h1 h2 _ ih =>
    rw [unescape.eq_def]
    have h := hex4_of h1
    have : ¬ (0xD800 ≤ n ∧ n < 0xE000) := by unfold ValidRune at h2; omega
    simp only [h, if_neg this, if_true, ih]
  | pair a b c d a' b' c' d' n n' h1 h2 h3 h4 h5 h6 _ ih =>
    rw [unescape.eq_def]
    have e1 := hex4_of h1
    have e2 := hex4_of h2
    simp only [e1, e2, if_true, if_pos (show 0xD800 ≤ n ∧ n < 0xE000 by omega), if_pos (show n < 0xDC00 ∧ 0xDC00 ≤ n' ∧ n' < 0xE000 by omega), ih]
  | low a b c d n h1 h2 h3 _ ih =>
    rename_i s t _
    rw [unescape.eq_def]
    have e1 := hex4_of h1
    simp only [e1, if_true, if_pos (show 0xD800 ≤ n ∧ n < 0xE000 by omega)]
    split
    · rename_i a' b' c' d' t' _
      rw [if_neg (by omega), ih]; rfl
    · rw [ih]; rfl
  | high a b c d n h1 h2 h3 h4 _ ih =>
    rename_i s t ht
    rw [unescape.eq_def]
    have e1 := hex4_of h1
    simp only [e1, if_true, if_pos (show 0xD800 ≤ n ∧ n < 0xE000 by omega)]
    split
    · rename_i a' b' c' d' t' 
      obtain ⟨m, hm⟩ := reads_hex ht rfl
      rw [if_neg, ih]
      · rfl
      · rintro ⟨_, hh⟩
        rw [hex4_of hm] at hh
        exact h4 ⟨a', b', c', d', m, t', rfl, hm, hh.1, hh.2⟩
    · rw [ih]; rfl

theorem hexVal_lt {c : UInt8} {n : Nat} (h : hexVal c = some n) : n < 16 := by
  have : ∀ c : UInt8, (hexVal c).getD 0 < 16 := by refine Scan.every_byte ?_; decide +kernel
  simpa [h] using this c

theorem hex4_lt {a b c d : UInt8} {n : Nat} (h : Hex4 a b c d n) : n < 0x10000 := by
  obtain ⟨n1, n2, n3, n4, h1, h2, h3, h4, rfl⟩ := h
  have := hexVal_lt h1; have := hexVal_lt h2; have := hexVal_lt h3; have := hexVal_lt h4
  omega

/-- every text between quotes can be read -/
theorem reads_all (t : Bytes) (h : StrText t) : ∃ s, StrReads s t := by
  cases h with
  | nil => exact ⟨_, .nil⟩
  | plain c h1 h2 h3 h =>
    obtain ⟨s, hs⟩ := reads_all _ h
    exact ⟨_, .plain c h1 h2 h3 hs⟩
  | esc e h1 h =>
    obtain ⟨s, hs⟩ := reads_all _ h
    have hc : (e, escChar e) ∈ escapes := by
      simp only [List.mem_cons, List.not_mem_nil, or_false] at h1
      rcases h1 with rfl | rfl | rfl | rfl | rfl | rfl | rfl | rfl <;> decide
    exact ⟨_, .esc e _ hc hs⟩
  | uni a b c d ha hb hc hd h =>
    rename_i t
    obtain ⟨s, hs⟩ := reads_all t h
    obtain ⟨n, hn⟩ : ∃ n, Hex4 a b c d n := by
      obtain ⟨n1, h1⟩ := Option.isSome_iff_exists.1 ha
      obtain ⟨n2, h2⟩ := Option.isSome_iff_exists.1 hb
      obtain ⟨n3, h3⟩ := Option.isSome_iff_exists.1 hc
      obtain ⟨n4, h4⟩ := Option.isSome_iff_exists.1 hd
      exact ⟨_, n1, n2, n3, n4, h1, h2, h3, h4, rfl⟩
    have hlt : n < 0x10000 := hex4_lt hn
    by_cases h1 : 0xD800 ≤ n ∧ n < 0xE000
    · by_cases h2 : 0xDC00 ≤ n
      · exact ⟨_, .low a b c d n hn h2 h1.2 hs⟩
      · by_cases h3 : LowNext t
        · obtain ⟨a', b', c', d', n', r, rfl, hn', h4, h5⟩ := h3
          have hr : StrText r := by
            cases h with
            | plain _ _ _ h _ => exact absurd rfl h
            | esc _ h _ => exact absurd h (by decide)
            | uni _ _ _ _ _ _ _ _ h => exact h
          obtain ⟨s', hs'⟩ := reads_all r hr
          exact ⟨_, .pair a b c d a' b' c' d' n n' hn hn' h1.1 (by omega) h4 h5 hs'⟩
        · exact ⟨_, .high a b c d n hn h1.1 (by omega) h3 hs⟩
    · exact ⟨_, .uni a b c d n hn (by unfold ValidRune; omega) hs⟩
termination_by t.length

theorem says_reads {s t : Bytes} (h : StrSays s t) : StrReads s t := by
  induction h with
  | nil => exact .nil
  | plain c h1 h2 h3 _ ih => exact .plain c h1 h2 h3 ih
  | esc e c h _ ih => exact .esc e c h ih
  | uni a b c d n h1 h2 _ ih => exact .uni a b c d n h1 h2 ih
  | pair a b c d a' b' c' d' n n' h1 h2 h3 h4 h5 h6 _ ih => exact .pair a b c d a' b' c' d' n n' h1 h2 h3 h4 h5 h6 ih

theorem unquote_reads {s t : Bytes} (h : StrReads s t) (hv : ValidUtf8 t) : unquote t = s := by
  rw [unquote, toValidUtf8_valid hv, reads_unescape h]

/-! ### Values -/

/-- the numbers are in range, the strings can be read -/
abbrev Good (F : FloatCodec) (S : Bytes → Bytes → Prop) (T : Tree) : Prop := T.All (fun n => ∃ x, F.parse n = some x) (fun q => ValidUtf8 q ∧ ∃ s, S s q)
abbrev GoodL (F : FloatCodec) (S : Bytes → Bytes → Prop) (l : List Tree) : Prop := AllL (fun n => ∃ x, F.parse n = some x) (fun q => ValidUtf8 q ∧ ∃ s, S s q) l
abbrev GoodF (F : FloatCodec) (S : Bytes → Bytes → Prop) (m : List (Bytes × Tree)) : Prop := AllF (fun n => ∃ x, F.parse n = some x) (fun q => ValidUtf8 q ∧ ∃ s, S s q) m

theorem unquote_of {S : Bytes → Bytes → Prop} (hS : ∀ s t, S s t → StrReads s t) {q : Bytes} (h : ValidUtf8 q ∧ ∃ s, S s q) : S (unquote q) q := by
  obtain ⟨hv, s, hs⟩ := h
  rw [unquote_reads (hS s q hs) hv]; exact hs

theorem plainF_keys {F : FloatCodec} {m : List (Bytes × Tree)} {kvs : List (Bytes × Val)} (h : plainF F m = some kvs) : kvs.map (·.1) = m.map fun y => unquote y.1 := by
  induction m generalizing kvs with
  | nil => simp [plainF] at h; subst h; rfl
  | cons x m ih =>
    obtain ⟨k, T⟩ := x
    simp only [plainF, Option.bind_eq_some_iff, Option.map_eq_some_iff] at h
    obtain ⟨v, _, l, hl, rfl⟩ := h
    simp [ih hl]

theorem saysM_iff {N : Bytes → Val → Prop} {S : Bytes → Bytes → Prop} {m : List (Bytes × Tree)} {kvs : List (Bytes × Val)} :
    SaysM N S m kvs ↔ ∀ y ∈ m, ∃ s v, S s y.1 ∧ mapGet kvs s = some v ∧ y.2.Says N S v := by
  induction m with
  | nil => simp [SaysM]
  | cons x m ih => obtain ⟨k, T⟩ := x; simp [SaysM, ih]

theorem keys_once {S : Bytes → Bytes → Prop} {m : List (Bytes × Tree)} (hp : m.Pairwise (fun a b => ¬ ∃ s, S s a.1 ∧ S s b.1))
    (h : ∀ y ∈ m, S (unquote y.1) y.1) : (m.map fun y => unquote y.1).Nodup := by
  induction m with
  | nil => exact List.nodup_nil
  | cons x m ih =>
    rw [List.pairwise_cons] at hp
    refine List.nodup_cons.2 ⟨fun hx => ?_, ih hp.2 fun y hy => h y (List.mem_cons_of_mem _ hy)⟩
    obtain ⟨y, hy, e⟩ := List.mem_map.1 hx
    refine hp.1 y hy ⟨unquote x.1, h x (List.mem_cons_self ..), ?_⟩
    rw [show unquote x.1 = unquote y.1 from e.symm]; exact h y (List.mem_cons_of_mem _ hy)

mutual
theorem plain_says {F : FloatCodec} {S : Bytes → Bytes → Prop} (hS : ∀ s t, S s t → StrReads s t) : ∀ (T : Tree), T.Once S → Good F S T →
    ∃ v, plain F T = some v ∧ T.Says (FloatSays F) S v
  | .null, _, _ => ⟨_, rfl, rfl⟩
  | .bool _, _, _ => ⟨_, rfl, rfl⟩
  | .num t, _, h => by
    obtain ⟨x, hx⟩ := h
    exact ⟨.f64 x, by simp [plain, hx], x, hx, rfl⟩
  | .str t, _, h => ⟨.str (unquote t), by simp [plain], unquote t, unquote_of hS h, rfl⟩
  | .arr l, hu, h => by
    obtain ⟨vs, h1, h2⟩ := plain_saysL hS l hu h
    exact ⟨.arr vs, by simp [plain, h1], vs, rfl, h2⟩
  | .obj m, hu, h => by
    obtain ⟨kvs, h1, h2⟩ := plain_saysF hS m hu.2 h
    have hg : ∀ y ∈ m, S (unquote y.1) y.1 := fun y hy => unquote_of hS (JsonBuf.allF_iff.1 h y hy).1
    have hn : (kvs.map (·.1)).Nodup := by rw [plainF_keys h1]; exact keys_once hu.1 hg
    refine ⟨.obj (mapOf kvs), by simp [plain, h1], mapOf kvs, rfl, saysM_iff.2 fun y hy => ?_, fun x hx => ?_⟩
    · obtain ⟨v, hv, hs⟩ := h2 y hy
      exact ⟨_, v, hg y hy, JsonBuf.mapOf_get hn hv, hs⟩
    · have : x.1 ∈ kvs.map (·.1) := List.mem_map_of_mem (JsonBuf.mapOf_mem hx)
      rw [plainF_keys h1] at this
      obtain ⟨y, hy, e⟩ := List.mem_map.1 this
      exact ⟨y, hy, by rw [← e]; exact hg y hy⟩
theorem plain_saysL {F : FloatCodec} {S : Bytes → Bytes → Prop} (hS : ∀ s t, S s t → StrReads s t) : ∀ (l : List Tree), OnceL S l → GoodL F S l →
    ∃ vs, plainL F l = some vs ∧ SaysL (FloatSays F) S l vs
  | [], _, _ => ⟨[], rfl, rfl⟩
  | T :: l, hu, h => by
    obtain ⟨v, h1, h2⟩ := plain_says hS T hu.1 h.1
    obtain ⟨vs, h3, h4⟩ := plain_saysL hS l hu.2 h.2
    exact ⟨v :: vs, by simp [plainL, h1, h3], v, vs, rfl, h2, h4⟩
theorem plain_saysF {F : FloatCodec} {S : Bytes → Bytes → Prop} (hS : ∀ s t, S s t → StrReads s t) : ∀ (m : List (Bytes × Tree)), OnceF S m → GoodF F S m →
    ∃ kvs, plainF F m = some kvs ∧ ∀ y ∈ m, ∃ v, (unquote y.1, v) ∈ kvs ∧ y.2.Says (FloatSays F) S v
  | [], _, _ => ⟨[], rfl, by simp⟩
  | (k, T) :: m, hu, h => by
    obtain ⟨v, h1, h2⟩ := plain_says hS T hu.1 h.2.1
    obtain ⟨kvs, h3, h4⟩ := plain_saysF hS m hu.2 h.2.2
    refine ⟨(unquote k, v) :: kvs, by simp [plainF, h1, h3], fun y hy => ?_⟩
    rcases List.mem_cons.1 hy with rfl | hy
    · exact ⟨v, List.mem_cons_self .., h2⟩
    · obtain ⟨w, hw, hs⟩ := h4 y hy
      exact ⟨w, List.mem_cons_of_mem _ hw, hs⟩
end

mutual
theorem spells_strings : ∀ {T : Tree} {t : Bytes}, Spells T t → T.All (fun _ => True) StrText
  | _, _, .null => trivial
  | _, _, .true => trivial
  | _, _, .false => trivial
  | _, _, .num _ _ => trivial
  | _, _, .str _ h => h
  | _, _, .arr0 _ _ => trivial
  | _, _, .arr _ _ h => spells_stringsL h
  | _, _, .obj0 _ _ => trivial
  | _, _, .obj _ _ h => spells_stringsF h
theorem spells_stringsL : ∀ {l : List Tree} {t : Bytes}, SpellsL l t → AllL (fun _ => True) StrText l
  | _, _, .one _ _ _ _ _ h _ => ⟨spells_strings h, trivial⟩
  | _, _, .cons _ _ _ _ _ _ _ h _ h' => ⟨spells_strings h, spells_stringsL h'⟩
theorem spells_stringsF : ∀ {m : List (Bytes × Tree)} {t : Bytes}, SpellsF m t → AllF (fun _ => True) StrText m
  | _, _, .one _ _ _ _ _ _ _ _ hk _ _ h _ => ⟨hk, spells_strings h, trivial⟩
  | _, _, .cons _ _ _ _ _ _ _ _ _ _ hk _ _ h _ h' => ⟨hk, spells_strings h, spells_stringsF h'⟩
end

mutual
theorem all_and {p q p' q' p'' q'' : Bytes → Prop} (hp : ∀ t, p t → p' t → p'' t) (hq : ∀ t, q t → q' t → q'' t) : ∀ {T : Tree}, T.All p q → T.All p' q' → T.All p'' q''
  | .null, _, _ => trivial
  | .bool _, _, _ => trivial
  | .num _, h, h' => hp _ h h'
  | .str _, h, h' => hq _ h h'
  | .arr _, h, h' => all_andL hp hq h h'
  | .obj _, h, h' => all_andF hp hq h h'
theorem all_andL {p q p' q' p'' q'' : Bytes → Prop} (hp : ∀ t, p t → p' t → p'' t) (hq : ∀ t, q t → q' t → q'' t) : ∀ {l : List Tree}, AllL p q l → AllL p' q' l → AllL p'' q'' l
  | [], _, _ => trivial
  | _ :: _, h, h' => ⟨all_and hp hq h.1 h'.1, all_andL hp hq h.2 h'.2⟩
theorem all_andF {p q p' q' p'' q'' : Bytes → Prop} (hp : ∀ t, p t → p' t → p'' t) (hq : ∀ t, q t → q' t → q'' t) : ∀ {m : List (Bytes × Tree)}, AllF p q m → AllF p' q' m → AllF p'' q'' m
  | [], _, _ => trivial
  | (_, _) :: _, h, h' => ⟨hq _ h.1 h'.1, all_and hp hq h.2.1 h'.2.1, all_andF hp hq h.2.2 h'.2.2⟩
end

mutual
theorem plain_numbers {F : FloatCodec} : ∀ {T : Tree} {v : Val}, plain F T = some v → T.All (fun n => ∃ x, F.parse n = some x) (fun _ => True)
  | .null, _, _ => trivial
  | .bool _, _, _ => trivial
  | .num t, v, h => by
    simp only [plain, Option.map_eq_some_iff] at h
    obtain ⟨x, hx, _⟩ := h
    exact ⟨x, hx⟩
  | .str _, _, _ => trivial
  | .arr l, v, h => by
    simp only [plain, Option.map_eq_some_iff] at h
    obtain ⟨x, hx, _⟩ := h
    exact plain_numbersL hx
  | .obj m, v, h => by
    simp only [plain, Option.map_eq_some_iff] at h
    obtain ⟨x, hx, _⟩ := h
    exact plain_numbersF hx
theorem plain_numbersL {F : FloatCodec} : ∀ {l : List Tree} {vs : List Val}, plainL F l = some vs → AllL (fun n => ∃ x, F.parse n = some x) (fun _ => True) l
  | [], _, _ => trivial
  | T :: l, vs, h => by
    simp only [plainL, Option.bind_eq_some_iff, Option.map_eq_some_iff] at h
    obtain ⟨v, hv, x, hx, _⟩ := h
    exact ⟨plain_numbers hv, plain_numbersL hx⟩
theorem plain_numbersF {F : FloatCodec} : ∀ {m : List (Bytes × Tree)} {kvs : List (Bytes × Val)}, plainF F m = some kvs → AllF (fun n => ∃ x, F.parse n = some x) (fun _ => True) m
  | [], _, _ => trivial
  | (k, T) :: m, vs, h => by
    simp only [plainF, Option.bind_eq_some_iff, Option.map_eq_some_iff] at h
    obtain ⟨v, hv, x, hx, _⟩ := h
    exact ⟨trivial, plain_numbers hv, plain_numbersF hx⟩
end

/-! ### Lines -/

/-- a line is a JSON text with whitespace around it, nested at most 10000 deep -/
def Line (l : Bytes) (T : Tree) : Prop := (∃ w t w', l = w ++ (t ++ w') ∧ WS w ∧ WS w' ∧ Spells T t) ∧ T.depth ≤ 10000 ∧ ∀ c ∈ l, c ≠ 10

theorem reader_tree (F : FloatCodec) {l : Bytes} {T : Tree} (h : Line l T) (n : Int) (r : Bytes) :
    reader F { entriesRead := n, rest := l ++ 10 :: r } =
      match plain F T with
      | none => (.fail (.other b!"json"), { entriesRead := n, rest := r })
      | some v => (.entry { index := n, value := v }, { entriesRead := n + 1, rest := r }) := by
  obtain ⟨⟨w, t, w', rfl, hw, hw', hs⟩, hd, hl⟩ := h
  have ht : tree ((w ++ (t ++ w')) ++ [10]) = some T := by
    rw [tree_iff]
    refine ⟨w, t, w' ++ [10], by simp, hw, ?_, hs, hd⟩
    intro c hc
    rcases List.mem_append.1 hc with h | h
    · exact hw' c h
    · simp only [List.mem_singleton] at h; subst h; decide
  simp only [reader, readLine_line hl, unmarshal_tree, ht, Option.bind_some]
  cases plain F T <;> rfl

/-- **C89**: a line that others wrote is delivered as the value it stands for, numbers as floating point numbers, if its numbers are in their range, its
strings are valid UTF-8 and surrogates come in pairs, and keys are not repeated. -/
theorem C89_line (F : FloatCodec) (l : Bytes) (T : Tree) (h : Line l T) (hu : T.Once StrSays)
    (hs : T.All (fun n => ∃ x, F.parse n = some x) (fun q => ValidUtf8 q ∧ ∃ s, StrSays s q)) (n : Int) (r : Bytes) :
    ∃ v, T.Says (FloatSays F) StrSays v ∧
      reader F { entriesRead := n, rest := l ++ 10 :: r } = (.entry { index := n, value := v }, { entriesRead := n + 1, rest := r }) := by
  obtain ⟨v, h1, h2⟩ := plain_says (fun _ _ => says_reads) T hu hs
  exact ⟨v, h2, by rw [reader_tree F h, h1]⟩

/-- **C89**: surrogates that are not in pairs become U+FFFD each, and everything else is as it should be. -/
theorem C89_lone_surrogates (F : FloatCodec) (l : Bytes) (T : Tree) (h : Line l T) (hu : T.Once StrReads)
    (hs : T.All (fun n => ∃ x, F.parse n = some x) ValidUtf8) (n : Int) (r : Bytes) :
    ∃ v, T.Says (FloatSays F) StrReads v ∧
      reader F { entriesRead := n, rest := l ++ 10 :: r } = (.entry { index := n, value := v }, { entriesRead := n + 1, rest := r }) := by
  have hx : T.All (fun _ => True) StrText := by obtain ⟨⟨w, t, w', _, _, _, hs⟩, _⟩ := h; exact spells_strings hs
  obtain ⟨v, h1, h2⟩ := plain_says (F := F) (S := StrReads) (fun _ _ h => h) T hu
    (all_and (fun _ h _ => h) (fun t h h' => ⟨h, reads_all t h'⟩) hs hx)
  exact ⟨v, h2, by rw [reader_tree F h, h1]⟩

/-- **C89**: one number out of range, anywhere in the line, makes the line an error; reading goes on behind it. -/
theorem C89_out_of_range (F : FloatCodec) (l : Bytes) (T : Tree) (h : Line l T) (hs : ¬ T.All (fun n => ∃ x, F.parse n = some x) (fun _ => True))
    (n : Int) (r : Bytes) :
    reader F { entriesRead := n, rest := l ++ 10 :: r } = (.fail (.other b!"json"), { entriesRead := n, rest := r }) := by
  rw [reader_tree F h]
  cases hp : plain F T with
  | none => rfl
  | some v => exact absurd (plain_numbers hp) hs

/-- **C89**: a body that others wrote: all lines in order, numbered, then the end; but what stands behind the last newline is lost. -/
theorem C89_body (F : FloatCodec) (ls : List Bytes) (Ts : List Tree) (tail : Bytes) (h : List.Forall₂ Line ls Ts) (hu : ∀ T ∈ Ts, T.Once StrSays)
    (hs : ∀ T ∈ Ts, T.All (fun n => ∃ x, F.parse n = some x) (fun q => ValidUtf8 q ∧ ∃ s, StrSays s q)) (ht : ∀ c ∈ tail, c ≠ 10) (n : Int) :
    ∃ vs st, List.Forall₂ (Tree.Says (FloatSays F) StrSays) Ts vs ∧
      Drains (reader F) { entriesRead := n, rest := (ls.map fun l => l ++ [10]).flatten ++ tail } (Json.indexed n vs) .eof st := by
  induction h generalizing n with
  | nil => exact ⟨[], { entriesRead := n, rest := [] }, .nil, _, .nil _, by simp only [List.map_nil, List.flatten_nil, List.nil_append, reader, readLine_none ht]⟩
  | cons hl _ ih =>
    rename_i l T ls Ts _
    obtain ⟨v, h1, h2⟩ := C89_line F l T hl (hu T (List.mem_cons_self ..)) (hs T (List.mem_cons_self ..)) n ((ls.map fun l => l ++ [10]).flatten ++ tail)
    obtain ⟨vs, st, h3, s₁, h4, h5⟩ := ih (fun T hT => hu T (List.mem_cons_of_mem _ hT)) (fun T hT => hs T (List.mem_cons_of_mem _ hT)) (n + 1)
    refine ⟨v :: vs, st, .cons h1 h3, s₁, ?_, h5⟩
    rw [Json.indexed]
    refine .cons ?_ h4
    simpa using h2

/-- **C89**: which numbers are in range: those that stand for less than 2^1024 - 2^970. -/
theorem C89_range (t xs : Bytes) (neg : Bool) (m : ℕ) (e : ℤ) (h : FloatText.Decimal t xs neg m e) (hl : t.length ≤ 9000) :
    (∃ x, FloatText.goF.parse t = some x) ↔ |FloatText.dec neg m e| < 2 ^ 1024 - 2 ^ 970 := by
  rw [← not_le, ← FloatText.C81_range h hl, ← ne_eq, Option.ne_none_iff_exists']
  rfl

/-- **C89**: the float that a number is delivered as is a nearest one, so it is the number itself if any float is. -/
theorem C89_numbers (t xs : Bytes) (neg : Bool) (m : ℕ) (e : ℤ) (h : FloatText.Decimal t xs neg m e) (hl : t.length ≤ 9000) (v : Val) (hv : FloatSays FloatText.goF t v) :
    ∃ x, v = .f64 x ∧ Ieee.Finite x ∧ (∀ w, Ieee.Finite w → |FloatText.value x - FloatText.dec neg m e| ≤ |FloatText.value w - FloatText.dec neg m e|) ∧
      ((∃ w, Ieee.Finite w ∧ FloatText.value w = FloatText.dec neg m e) → FloatText.value x = FloatText.dec neg m e) := by
  obtain ⟨x, hx, rfl⟩ := hv
  obtain ⟨h1, _, h2⟩ := FloatText.C81_nearest h hl x hx
  refine ⟨x, rfl, h1, fun w hw => (h2 w hw).1, ?_⟩
  rintro ⟨w, hw, e'⟩
  have := (h2 w hw).1
  rw [e', sub_self, abs_zero] at this
  exact sub_eq_zero.1 (abs_nonpos_iff.1 this)

/-! examples -/

theorem exLine1 : Line b!" [1.5 ,2.5]" (.arr [.num b!"1.5", .num b!"2.5"]) := by
  have h1 : NumText b!"1.5" := ⟨[], b!"1", b!".5", .inl rfl, .nonzero 49 [] (by decide) (by decide) (by simp [Digits]), .inr (.frac _ (by decide) (by unfold JsonG.Digits; decide)), rfl⟩
  have h2 : NumText b!"2.5" := ⟨[], b!"2", b!".5", .inl rfl, .nonzero 50 [] (by decide) (by decide) (by simp [Digits]), .inr (.frac _ (by decide) (by unfold JsonG.Digits; decide)), rfl⟩
  refine ⟨⟨b!" ", b!"[1.5 ,2.5]", [], rfl, by unfold WS; decide, by unfold WS; decide, ?_⟩, by decide, by decide⟩
  exact .arr _ b!"1.5 ,2.5" (.cons _ [] b!"1.5" b!" " _ b!"2.5" (by unfold WS; decide) (.num _ h1) (by unfold WS; decide)
    (.one _ [] b!"2.5" [] (by unfold WS; decide) (.num _ h2) (by unfold WS; decide)))

theorem exLine2 : Line b!"\"\\ud83d\\ude00\"" (.str b!"\\ud83d\\ude00") := by
  refine ⟨⟨[], b!"\"\\ud83d\\ude00\"", [], rfl, by unfold WS; decide, by unfold WS; decide, ?_⟩, by decide, by decide⟩
  exact .str _ (.uni _ _ _ _ (by decide) (by decide) (by decide) (by decide) (.uni _ _ _ _ (by decide) (by decide) (by decide) (by decide) .nil))

example : ∃ vs st, List.Forall₂ (Tree.Says (FloatSays exF) StrSays) [.arr [.num b!"1.5", .num b!"2.5"], .str b!"\\ud83d\\ude00"] vs ∧
    Drains (reader exF) { rest := b!" [1.5 ,2.5]\n\"\\ud83d\\ude00\"\ntrue" } (Json.indexed 0 vs) .eof st := by
  have hv : ValidUtf8 b!"\\ud83d\\ude00" := by
    have := validUtf8_ascii (l := b!"\\ud83d\\ude00") (by decide) .nil; simpa using this
  exact C89_body exF [b!" [1.5 ,2.5]", b!"\"\\ud83d\\ude00\""] _ b!"true" (.cons exLine1 (.cons exLine2 .nil)) (by simp [Tree.Once, OnceL])
    (by
      intro T hT
      simp only [List.mem_cons, List.not_mem_nil, or_false] at hT
      rcases hT with rfl | rfl
      · exact ⟨⟨0x3FF8000000000000, by decide⟩, ⟨0x4004000000000000, by decide⟩, trivial⟩
      · exact ⟨hv, _, JsonBuf.says_smile⟩) (by decide) 0

example : unmarshal exF b!"\"\\ud83d\\ude00\"" = some (.str [0xF0, 0x9F, 0x98, 0x80]) ∧ unmarshal exF b!"\"\\ud83d\\ud83dx\"" = some (.str [0xEF, 0xBF, 0xBD, 0xEF, 0xBF, 0xBD, 120]) := by
  decide +kernel

end Verif.Ndjson
