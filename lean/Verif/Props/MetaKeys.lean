import Verif.Props.MetaSet
import Verif.Props.TextForms
/-
C50: exactly which keys name a field, and what a rejected value leaves.
-/
set_option autoImplicit false
namespace Verif.Doc

/-! ## Keys -/

/-- the spellings of a small letter: it, the capital, and for k and i the Kelvin sign and the I with a dot -/
def Letter (c : UInt8) (s : Bytes) : Prop :=
  (97 ≤ c ∧ c ≤ 122) ∧ (s = [c] ∨ s = [c - 32] ∨ (c = 107 ∧ s = [0xE2, 0x84, 0xAA]) ∨ (c = 105 ∧ s = [0xC4, 0xB0]))

/-- `k` spells the small letters `n` -/
def Spells (n k : Bytes) : Prop := ∃ parts, List.Forall₂ Letter n parts ∧ k = parts.flatten

theorem toLower_cons (c : UInt8) (t : Bytes) (h1 : c ≠ 0xE2) (h2 : c ≠ 0xC4) : toLower (c :: t) = (if 65 ≤ c ∧ c ≤ 90 then c + 32 else c) :: toLower t :=
  toLower.eq_3 c t (fun _ h => absurd h h1) (fun _ h => absurd h h2)

theorem letter_fixed : ∀ c : UInt8, 97 ≤ c ∧ c ≤ 122 → c ≠ 0xE2 ∧ c ≠ 0xC4 ∧ c - 32 ≠ 0xE2 ∧ c - 32 ≠ 0xC4 ∧ ¬ (65 ≤ c ∧ c ≤ 90) ∧ (65 ≤ c - 32 ∧ c - 32 ≤ 90) ∧ c - 32 + 32 = c := by
  have H : ∀ n < 256, 97 ≤ UInt8.ofNat n ∧ UInt8.ofNat n ≤ 122 → UInt8.ofNat n ≠ 0xE2 ∧ UInt8.ofNat n ≠ 0xC4 ∧ UInt8.ofNat n - 32 ≠ 0xE2 ∧ UInt8.ofNat n - 32 ≠ 0xC4 ∧
      ¬ (65 ≤ UInt8.ofNat n ∧ UInt8.ofNat n ≤ 90) ∧ (65 ≤ UInt8.ofNat n - 32 ∧ UInt8.ofNat n - 32 ≤ 90) ∧ UInt8.ofNat n - 32 + 32 = UInt8.ofNat n := by decide +kernel
  intro c
  have := H c.toNat c.toNat_lt
  rwa [UInt8.ofNat_toNat] at this

theorem lower_capital : ∀ c : UInt8, 65 ≤ c ∧ c ≤ 90 → c + 32 - 32 = c := by
  intro c _
  exact UInt8.add_sub_cancel ..

theorem toLower_letter {c : UInt8} {s : Bytes} (h : Letter c s) (t : Bytes) : toLower (s ++ t) = c :: toLower t := by
  obtain ⟨⟨h1, h2⟩, h⟩ := h
  obtain ⟨f1, f2, f3, f4, f5, f6, f7⟩ := letter_fixed c ⟨h1, h2⟩
  rcases h with rfl | rfl | ⟨rfl, rfl⟩ | ⟨rfl, rfl⟩
  · rw [List.cons_append, List.nil_append, toLower_cons c t f1 f2, if_neg f5]
  · rw [List.cons_append, List.nil_append, toLower_cons _ t f3 f4, if_pos f6, f7]
  · simp [toLower]
  · simp [toLower]

theorem spells_iff (n k : Bytes) (hn : ∀ c ∈ n, 97 ≤ c ∧ c ≤ 122) : toLower k = n ↔ Spells n k := by
  constructor
  · induction k using toLower.induct generalizing n with
    | case1 t ih =>
      intro h
      rw [toLower] at h
      subst h
      obtain ⟨ps, h1, h2⟩ := ih _ (fun c hc => hn c (by simp [hc])) rfl
      exact ⟨[0xE2, 0x84, 0xAA] :: ps, .cons ⟨by decide, .inr (.inr (.inl ⟨rfl, rfl⟩))⟩ h1, by rw [List.flatten_cons, ← h2]; rfl⟩
    | case2 t ih =>
      intro h
      rw [toLower] at h
      subst h
      obtain ⟨ps, h1, h2⟩ := ih _ (fun c hc => hn c (by simp [hc])) rfl
      exact ⟨[0xC4, 0xB0] :: ps, .cons ⟨by decide, .inr (.inr (.inr ⟨rfl, rfl⟩))⟩ h1, by rw [List.flatten_cons, ← h2]; rfl⟩
    | case3 c t h1 h2 ih =>
      intro h
      rw [toLower.eq_3 c t h1 h2] at h
      subst h
      obtain ⟨ps, h1, h2⟩ := ih _ (fun c hc => hn c (by simp [hc])) rfl
      have hc := hn _ (List.mem_cons_self ..)
      refine ⟨[c] :: ps, .cons ⟨hc, ?_⟩ h1, by rw [List.flatten_cons, ← h2]; rfl⟩
      by_cases hu : 65 ≤ c ∧ c ≤ 90
      · rw [if_pos hu, lower_capital c hu]; exact .inr (.inl rfl)
      · rw [if_neg hu]; exact .inl rfl
    | case4 =>
      intro h
      rw [toLower] at h
      subst h
      exact ⟨[], .nil, rfl⟩
  · rintro ⟨ps, h, rfl⟩
    clear hn
    induction h with
    | nil => simp [toLower]
    | cons h _ ih => rw [List.flatten_cons, toLower_letter h, ih]

/-- what is trimmed is white space -/
theorem trimLeft_split (sp : List Bytes) (f : Nat) (s : Bytes) : ∃ ws : List Bytes, (∀ w ∈ ws, w ∈ sp) ∧ s = ws.flatten ++ trimLeftF sp f s := by
  induction f generalizing s with
  | zero => exact ⟨[], by simp, rfl⟩
  | succ f ih =>
    rw [trimLeftF]
    cases hd : dropOne sp s with
    | none => exact ⟨[], by simp, rfl⟩
    | some t =>
      unfold dropOne at hd
      obtain ⟨p, hp, rfl⟩ := Option.map_eq_some_iff.mp hd
      have h1 := List.mem_of_find?_eq_some hp
      have h2 := List.find?_some hp
      rw [List.isPrefixOf_iff_prefix] at h2
      obtain ⟨t, rfl⟩ := h2
      rw [List.drop_left]
      obtain ⟨ws, h3, h4⟩ := ih t
      refine ⟨p :: ws, ?_, ?_⟩
      · intro w hw
        rcases List.mem_cons.mp hw with rfl | hw
        · exact h1
        · exact h3 w hw
      · simp only
        rw [List.flatten_cons, List.append_assoc, ← h4]

theorem trim_split (s : Bytes) : ∃ a z : List Bytes, (∀ w ∈ a, w ∈ spaces) ∧ (∀ w ∈ z, w ∈ spaces) ∧ s = a.flatten ++ trimSpace s ++ z.flatten := by
  unfold trimSpace
  simp only
  obtain ⟨a, h1, h2⟩ := trimLeft_split spaces s.length s
  generalize trimLeftF spaces s.length s = l at *
  obtain ⟨z, h3, h4⟩ := trimLeft_split (spaces.map List.reverse) l.length l.reverse
  refine ⟨a, (z.map List.reverse).reverse, h1, ?_, ?_⟩
  · intro w hw
    rw [List.mem_reverse, List.mem_map] at hw
    obtain ⟨x, hx, rfl⟩ := hw
    obtain ⟨y, hy, rfl⟩ := List.mem_map.mp (h3 x hx)
    rwa [List.reverse_reverse]
  · rw [List.append_assoc, h2]
    congr 1
    have := congrArg List.reverse h4
    rw [List.reverse_reverse, List.reverse_append, List.reverse_flatten] at this
    exact this

/-- no letters and no results of lowering among spaces -/
def Blank (w : Bytes) : Prop := ∀ c ∈ w, ¬ (97 ≤ c ∧ c ≤ 122)

theorem space_blank : ∀ w ∈ spaces, Blank w := by
  unfold Blank
  decide +kernel

theorem flatten_blank (ws : List Bytes) (h : ∀ w ∈ ws, w ∈ spaces) : Blank ws.flatten := by
  intro c hc
  obtain ⟨w, hw, hc⟩ := List.mem_flatten.mp hc
  exact space_blank w (h w hw) c hc

/-- the lowered key cut in two -/
theorem toLower_split (k p q : Bytes) (h : toLower k = p ++ q) : ∃ p' q', k = p' ++ q' ∧ toLower p' = p ∧ toLower q' = q := by
  induction k using toLower.induct generalizing p with
  | case1 t ih =>
    cases p with
    | nil => exact ⟨[], _, rfl, rfl, h⟩
    | cons c p =>
      rw [toLower, List.cons_append, List.cons.injEq] at h
      obtain ⟨rfl, h⟩ := h
      obtain ⟨p', q', rfl, rfl, rfl⟩ := ih p h
      exact ⟨_ :: _ :: _ :: p', q', rfl, by rw [toLower], rfl⟩
  | case2 t ih =>
    cases p with
    | nil => exact ⟨[], _, rfl, rfl, h⟩
    | cons c p =>
      rw [toLower, List.cons_append, List.cons.injEq] at h
      obtain ⟨rfl, h⟩ := h
      obtain ⟨p', q', rfl, rfl, rfl⟩ := ih p h
      exact ⟨_ :: _ :: p', q', rfl, by rw [toLower], rfl⟩
  | case3 c t h1 h2 ih =>
    cases p with
    | nil => exact ⟨[], _, rfl, rfl, h⟩
    | cons d p =>
      rw [toLower.eq_3 c t h1 h2, List.cons_append, List.cons.injEq] at h
      obtain ⟨rfl, h⟩ := h
      obtain ⟨p', q', rfl, rfl, rfl⟩ := ih p h
      refine ⟨c :: p', q', rfl, ?_, rfl⟩
      exact toLower.eq_3 c p' (fun u hu he => h1 (u ++ q') hu (by rw [he]; rfl)) (fun u hu he => h2 (u ++ q') hu (by rw [he]; rfl))
  | case4 =>
    rw [toLower] at h
    have := (List.nil_eq_append_iff).mp h
    exact ⟨[], [], rfl, by rw [this.1]; rfl, by rw [this.2]; rfl⟩

theorem toLower_blank (k : Bytes) (h : Blank (toLower k)) : toLower k = k := by
  induction k using toLower.induct with
  | case1 t _ => exact absurd (by decide) (h 107 (by rw [toLower]; simp))
  | case2 t _ => exact absurd (by decide) (h 105 (by rw [toLower]; simp))
  | case3 c t h1 h2 ih =>
    rw [toLower.eq_3 c t h1 h2] at h ⊢
    rw [ih fun x hx => h x (by simp [hx])]
    have := h _ (List.mem_cons_self ..)
    by_cases hu : 65 ≤ c ∧ c ≤ 90
    · rw [if_pos hu] at this
      exfalso
      apply this
      obtain ⟨u1, u2⟩ := hu
      rw [UInt8.le_iff_toNat_le] at u1 u2 ⊢
      rw [UInt8.le_iff_toNat_le]
      have v1 : 65 ≤ c.toNat := u1
      have v2 : c.toNat ≤ 90 := u2
      have : (c + 32).toNat = c.toNat + 32 := by rw [UInt8.toNat_add]; show (c.toNat + 32) % 256 = _; omega
      rw [this]
      exact ⟨by show 97 ≤ _; omega, by show _ ≤ 122; omega⟩
    · rw [if_neg hu]
  | case4 => rfl

/-- **C50**: the keys that name a field: exactly its name in any spelling of the letters, between any amount of white space. -/
theorem C50_keys (n key : Bytes) (hn : n ∈ fieldNames) : keyName key = n ↔
    ∃ a k z, (∀ w ∈ a, w ∈ TextForms.spaces) ∧ (∀ w ∈ z, w ∈ TextForms.spaces) ∧ Spells n k ∧ key = List.flatten a ++ k ++ List.flatten z := by
  have hs : TextForms.spaces = spaces := by decide +kernel
  rw [hs]
  have hl : ∀ n ∈ fieldNames, ∀ c ∈ n, 97 ≤ c ∧ c ≤ 122 := by decide +kernel
  constructor
  · intro h
    unfold keyName at h
    obtain ⟨a, z, ha, hz, e⟩ := trim_split (toLower key)
    rw [h, List.append_assoc] at e
    obtain ⟨a', r, e1, e2, e3⟩ := toLower_split _ _ _ e
    obtain ⟨k, z', e4, e5, e6⟩ := toLower_split _ _ _ e3
    have b1 := toLower_blank a' (by rw [e2]; exact flatten_blank a ha)
    have b2 := toLower_blank z' (by rw [e6]; exact flatten_blank z hz)
    refine ⟨a, k, z, ha, hz, (spells_iff n k (hl n hn)).mp e5, ?_⟩
    rw [e1, e4, ← e2, b1, ← e6, b2, List.append_assoc]
  · rintro ⟨a, k, z, ha, hz, hk, rfl⟩
    exact C50_key_spelling n k hn ((spells_iff n k (hl n hn)).mpr hk) a z ha hz

example : keyName b!" TİtLe\n" = b!"title" ∧ keyName b!"ti tle" ≠ b!"title" := by decide +kernel

/-! ## Rejected values -/

/-- **C50**: a rejected license: the old one is gone; of the new one the type is kept if it could be read. -/
theorem C50_rejected_license (m : Meta) (key : Bytes) (v : Val) (hk : keyName key = b!"license") (h : (m.set key v).2 = false) :
    (∃ kvs t, v = .obj kvs ∧ MemberOf kvs b!"type" t ∧ (m.set key v).1 = { m with license := some { type := t } }) ∨
      ((¬ ∃ kvs t, v = .obj kvs ∧ MemberOf kvs b!"type" t) ∧ (m.set key v).1 = { m with license := some {} }) := by
  have e : m.set key v = ({ m with license := some (License.decode v).1 }, (License.decode v).2) := by
    rw [Meta.set, hk]
    simp [Meta.setN]
  rw [e] at h ⊢
  simp only at h ⊢
  cases v with
  | obj kvs =>
    simp only [License.decode] at h ⊢
    cases ht : strVal (member kvs b!"type") with
    | none =>
      right
      refine ⟨?_, rfl⟩
      rintro ⟨kvs', t, e, hm⟩
      cases e
      rw [(strVal_member _ _ _).mpr hm] at ht
      cases ht
    | some t =>
      left
      refine ⟨kvs, t, rfl, (strVal_member _ _ _).mp ht, ?_⟩
      cases hu : strVal (member kvs b!"url") with
      | none => rfl
      | some u => rw [ht, hu] at h; cases h
  | _ => right; exact ⟨by simp, rfl⟩

example : Meta.set { license := some { type := b!"old", url := b!"u" } } b!"license" (.obj [(b!"type", .str b!"MIT"), (b!"url", .bool true)]) =
    ({ license := some { type := b!"MIT" } }, false) := by decide +kernel

theorem elems_rejected {α : Type} (f : Val → Option α) (es : List Val) (h : (decodeElems f es).2 = false) :
    ∃ pre v post, es = pre ++ v :: post ∧ f v = none ∧ (∀ x ∈ pre, (f x).isSome) ∧
      (decodeElems f es).1 = pre.map f ++ List.replicate (post.length + 1) none := by
  induction es with
  | nil => simp [decodeElems] at h
  | cons v es ih =>
    unfold decodeElems at h ⊢
    cases hv : f v with
    | none => exact ⟨[], v, es, rfl, hv, by simp, by simp⟩
    | some a =>
      rw [hv] at h
      obtain ⟨pre, w, post, h1, h2, h3, h4⟩ := ih h
      refine ⟨v :: pre, w, post, by rw [h1]; rfl, h2, ?_, ?_⟩
      · intro x hx
        rcases List.mem_cons.mp hx with rfl | hx
        · simp [hv]
        · exact h3 x hx
      · simp [h4, hv]

/-- **C50**: rejected citations: what is no array changes nothing; else the list is that of the elements before the first unreadable one, with as many gaps
after them as there are elements left. -/
theorem C50_rejected_citations (m : Meta) (key : Bytes) (v : Val) (hk : keyName key = b!"citations") (h : (m.set key v).2 = false) :
    ((∀ es, v ≠ .arr es) ∧ (m.set key v).1 = m) ∨
      ∃ pre w post l, v = .arr (pre ++ w :: post) ∧ (∀ c, ¬ CitationOf w c) ∧ List.Forall₂ CitationOf pre l ∧
        (m.set key v).1 = { m with citations := some (l ++ List.replicate (post.length + 1) none) } := by
  rw [Meta.set, hk] at h ⊢
  cases v with
  | arr es =>
    right
    have e : m.setN b!"citations" key (.arr es) = ({ m with citations := some (decodeElems Citation.decode es).1 }, (decodeElems Citation.decode es).2) := by
      simp [Meta.setN]
    rw [e] at h ⊢
    obtain ⟨pre, w, post, rfl, h2, h3, h4⟩ := elems_rejected _ es h
    refine ⟨pre, w, post, pre.map Citation.decode, rfl, ?_, ?_, by rw [h4]⟩
    · rintro c hc
      obtain ⟨kvs, c', -, rfl, -⟩ := id hc
      rw [(citation_iff w c').mpr hc] at h2; cases h2
    · rw [List.forall₂_map_right_iff, List.forall₂_same]
      intro x hx
      obtain ⟨c, hc⟩ := Option.isSome_iff_exists.mp (h3 x hx)
      rw [hc]; exact (citation_iff x c).mp hc
  | _ => left; exact ⟨by simp, by simp [Meta.setN]⟩

/-- **C50**: and so for contributors. -/
theorem C50_rejected_contributors (m : Meta) (key : Bytes) (v : Val) (hk : keyName key = b!"contributors") (h : (m.set key v).2 = false) :
    ((∀ es, v ≠ .arr es) ∧ (m.set key v).1 = m) ∨
      ∃ pre w post l, v = .arr (pre ++ w :: post) ∧ (∀ c, ¬ UserOf w c) ∧ List.Forall₂ UserOf pre l ∧
        (m.set key v).1 = { m with contributors := some (l ++ List.replicate (post.length + 1) none) } := by
  rw [Meta.set, hk] at h ⊢
  cases v with
  | arr es =>
    right
    have e : m.setN b!"contributors" key (.arr es) = ({ m with contributors := some (decodeElems User.decode es).1 }, (decodeElems User.decode es).2) := by
      simp [Meta.setN]
    rw [e] at h ⊢
    obtain ⟨pre, w, post, rfl, h2, h3, h4⟩ := elems_rejected _ es h
    refine ⟨pre, w, post, pre.map User.decode, rfl, ?_, ?_, by rw [h4]⟩
    · rintro c hc
      obtain ⟨kvs, c', -, rfl, -⟩ := id hc
      rw [(user_iff w c').mpr hc] at h2; cases h2
    · rw [List.forall₂_map_right_iff, List.forall₂_same]
      intro x hx
      obtain ⟨c, hc⟩ := Option.isSome_iff_exists.mp (h3 x hx)
      rw [hc]; exact (user_iff x c).mp hc
  | _ => left; exact ⟨by simp, by simp [Meta.setN]⟩

example : Meta.set {} b!"Contributors" (.arr [.obj [(b!"id", .str b!"a")], .null, .obj []]) = ({ contributors := some [some { id := b!"a" }, none, none] }, false) := by
  decide +kernel

end Verif.Doc
