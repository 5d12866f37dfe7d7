import Verif.Lemmas.JsonOthers
import Verif.Props.FloatText
import Verif.Props.JsonBuf
import Mathlib.Data.List.Perm.Subperm
/- C88: JSON that others wrote. -/
set_option autoImplicit false
namespace Verif.JsonBuf
open Json JsonG

/-! ### Numbers -/

theorem mapGet_mem {α : Type} {m : List (Bytes × α)} {k : Bytes} {v : α} (h : mapGet m k = some v) : (k, v) ∈ m := by
  induction m with
  | nil => simp [mapGet] at h
  | cons x m ih =>
    obtain ⟨k', v'⟩ := x
    rw [mapGet] at h
    split at h
    · rename_i e; cases h; subst e; exact List.mem_cons_self ..
    · exact List.mem_cons_of_mem _ (ih h)

mutual
theorem nums_means {F : FloatCodec} : ∀ (T : Tree) (v : Val), T.Means F v → IntsFit v → Tree.Nums F T
  | .null, _, _, _ => by simp [Tree.All]
  | .bool _, _, _, _ => by simp [Tree.All]
  | .str _, _, _, _ => by simp [Tree.All]
  | .num t, v, h, hi => by
    simp only [Tree.Nums, Tree.All]
    refine ⟨v, by simpa only [Tree.Means] using h, ?_⟩
    rintro i rfl
    simpa only [IntsFit] using hi
  | .arr l, v, h, hi => by
    simp only [Tree.Means] at h
    obtain ⟨vs, rfl, h⟩ := h
    simp only [Tree.Nums, Tree.All]
    exact nums_meansL l vs h (by simpa only [IntsFit] using hi)
  | .obj m, v, h, hi => by
    simp only [Tree.Means] at h
    obtain ⟨kvs, rfl, h, _⟩ := h
    simp only [Tree.Nums, Tree.All]
    exact nums_meansM m kvs h (by simpa only [IntsFit] using hi)
theorem nums_meansL {F : FloatCodec} : ∀ (l : List Tree) (vs : List Val), MeansL F l vs → IntsFitL vs → NumsL F l
  | [], _, _, _ => by simp [AllL]
  | T :: l, vs, h, hi => by
    simp only [MeansL] at h
    obtain ⟨v, r, rfl, h1, h2⟩ := h
    simp only [IntsFitL] at hi
    exact ⟨nums_means T v h1 hi.1, nums_meansL l r h2 hi.2⟩
theorem nums_meansM {F : FloatCodec} : ∀ (m : List (Bytes × Tree)) (kvs : List (Bytes × Val)), MeansM F m kvs → IntsFitM kvs → NumsF F m
  | [], _, _, _ => by simp [AllF]
  | (k, T) :: m, kvs, h, hi => by
    simp only [MeansM] at h
    obtain ⟨⟨s, v, _, h2, h3⟩, h4⟩ := h
    exact ⟨trivial, nums_means T v h3 (intsFitM_iff.1 hi _ (mapGet_mem h2)), nums_meansM m kvs h4 hi⟩
end

theorem nums_meansF {F : FloatCodec} : ∀ (m : List (Bytes × Tree)) (kvs : List (Bytes × Val)), MeansF F m kvs → IntsFitM kvs → NumsF F m
  | [], _, _, _ => by simp [AllF]
  | (k, T) :: m, kvs, h, hi => by
    simp only [MeansF] at h
    obtain ⟨s, v, r, rfl, _, h3, h4⟩ := h
    simp only [IntsFitM] at hi
    exact ⟨trivial, nums_means T v h3 hi.1, nums_meansF m r h4 hi.2⟩

/-! ### Keys -/

theorem meansM_keys {F : FloatCodec} : ∀ {m : List (Bytes × Tree)} {kvs : List (Bytes × Val)}, MeansM F m kvs →
    ∃ ks, List.Forall₂ (fun s y => StrSays s y.1 ∧ ∃ v, mapGet kvs s = some v ∧ y.2.Means F v) ks m
  | [], _, _ => ⟨[], .nil⟩
  | (k, T) :: m, kvs, h => by
    simp only [MeansM] at h
    obtain ⟨⟨s, v, h1, h2, h3⟩, h4⟩ := h
    obtain ⟨ks, hk⟩ := meansM_keys h4
    exact ⟨s :: ks, .cons ⟨h1, v, h2, h3⟩ hk⟩

theorem keys_nodup {R : Bytes → Bytes × Tree → Prop} (hR : ∀ s y, R s y → StrSays s y.1) : ∀ {ks : List Bytes} {m : List (Bytes × Tree)}, List.Forall₂ R ks m →
    m.Pairwise (fun a b => ¬ ∃ s, StrSays s a.1 ∧ StrSays s b.1) → ks.Nodup
  | _, _, .nil, _ => List.nodup_nil
  | _, _, @List.Forall₂.cons _ _ _ s y ks m h hm, hp => by
    rw [List.pairwise_cons] at hp
    refine List.nodup_cons.2 ⟨fun hs => ?_, keys_nodup hR hm hp.2⟩
    have : ∃ z ∈ m, R s z := by
      clear hp
      induction hm with
      | nil => simp at hs
      | @cons s' z ks m h' _ ih =>
        rcases List.mem_cons.1 hs with rfl | hs
        · exact ⟨z, List.mem_cons_self .., h'⟩
        · obtain ⟨z', hz, hr⟩ := ih hs; exact ⟨z', List.mem_cons_of_mem _ hz, hr⟩
    obtain ⟨z, hz, hr⟩ := this
    exact hp.1 z hz ⟨s, hR _ _ h, hR _ _ hr⟩

theorem keys_sum_le {R : Bytes → Bytes × Tree → Prop} (hR : ∀ s y, R s y → StrSays s y.1) {ks : List Bytes} {m : List (Bytes × Tree)} (h : List.Forall₂ R ks m) :
    ((m.map fun y => Json.unq y.1).map List.length).sum ≤ (ks.map List.length).sum := by
  induction h with
  | nil => simp
  | cons h _ ih => have := (unq_says (hR _ _ h)).1; simp only [List.map_cons, List.sum_cons]; omega

theorem keys_sum_eq {R : Bytes → Bytes × Tree → Prop} (hR : ∀ s y, R s y → StrSays s y.1) {ks : List Bytes} {m : List (Bytes × Tree)} (h : List.Forall₂ R ks m)
    (he : (ks.map List.length).sum ≤ ((m.map fun y => Json.unq y.1).map List.length).sum) : ∀ y ∈ m, NoSurrogates y.1 ∧ R (Json.unq y.1) y := by
  induction h with
  | nil => simp
  | @cons s y ks m h hm ih =>
    have h1 := unq_says (hR _ _ h)
    have h2 := keys_sum_le hR hm
    simp only [List.map_cons, List.sum_cons] at he
    intro z hz
    rcases List.mem_cons.1 hz with rfl | hz
    · have hb := h1.2 (by omega)
      exact ⟨⟨s, hb⟩, by rw [unq_body hb]; exact h⟩
    · exact ih (by omega) z hz

theorem valF_keys (F : FloatCodec) (m : List (Bytes × Tree)) : (valF F m).map (·.1) = m.map fun y => Json.unq y.1 := by
  induction m with
  | nil => rfl
  | cons x m ih => obtain ⟨k, T⟩ := x; simp [valF, ih]

theorem valF_mem (F : FloatCodec) {m : List (Bytes × Tree)} {y : Bytes × Tree} (h : y ∈ m) : (Json.unq y.1, val F y.2) ∈ valF F m := by
  induction m with
  | nil => simp at h
  | cons x m ih =>
    obtain ⟨k, T⟩ := x
    rw [valF]
    rcases List.mem_cons.1 h with rfl | h
    · exact List.mem_cons_self ..
    · exact List.mem_cons_of_mem _ (ih h)

theorem mapOf_mem {α : Type} {l : List (Bytes × α)} {x : Bytes × α} (h : x ∈ mapOf l) : x ∈ l := by
  have : ∀ (l acc : List (Bytes × α)), x ∈ l.foldl (fun m kv => mapSet m kv.1 kv.2) acc → x ∈ acc ∨ x ∈ l := by
    intro l
    induction l with
    | nil => intro acc h; exact .inl h
    | cons y l ih =>
      intro acc h
      rcases ih _ h with h | h
      · rcases mem_mapSet h with rfl | h
        · exact .inr (List.mem_cons_self ..)
        · exact .inl h
      · exact .inr (List.mem_cons_of_mem _ h)
  rcases this l [] h with h | h
  · simp at h
  · exact h

theorem mapOf_get {α : Type} {l : List (Bytes × α)} (hn : (l.map (·.1)).Nodup) {k : Bytes} {v : α} (h : (k, v) ∈ l) : mapGet (mapOf l) k = some v := by
  rw [mapOf, mapGet_foldSet_nodup hn, (mapGet_mem_nodup hn).2 h]
  simp

/-- if the map that is read has every key of the text, no key has surrogates -/
theorem keys_plain {F : FloatCodec} {m : List (Bytes × Tree)} (hp : m.Pairwise (fun a b => ¬ ∃ s, StrSays s a.1 ∧ StrSays s b.1))
    (h : MeansM F m (mapOf (valF F m))) : ∀ y ∈ m, NoSurrogates y.1 ∧ y.2.Means F (val F y.2) := by
  obtain ⟨ks, hk⟩ := meansM_keys h
  have hR : ∀ (s : Bytes) (y : Bytes × Tree), (StrSays s y.1 ∧ ∃ v, mapGet (mapOf (valF F m)) s = some v ∧ y.2.Means F v) → StrSays s y.1 := fun _ _ h => h.1
  have hn := keys_nodup hR hk hp
  have hsub : ks ⊆ m.map fun y => Json.unq y.1 := by
    intro s hs
    obtain ⟨i, hi, rfl⟩ := List.mem_iff_getElem.1 hs
    have := (List.forall₂_iff_get.1 hk).2 i hi (by rw [← hk.length_eq]; exact hi)
    obtain ⟨_, v, hv, _⟩ := this
    rw [← valF_keys F m]
    exact List.mem_map_of_mem (f := (·.1)) (mapOf_mem (mapGet_mem hv))
  have hperm : ks.Perm (m.map fun y => Json.unq y.1) := (hn.subperm hsub).perm_of_length_le (by simp [hk.length_eq])
  have hnod : ((valF F m).map (·.1)).Nodup := by rw [valF_keys]; exact hperm.nodup_iff.1 hn
  have hall := keys_sum_eq hR hk (Nat.le_of_eq (hperm.map List.length).sum_nat)
  intro y hy
  obtain ⟨h1, _, v, h2, h3⟩ := hall y hy
  rw [mapOf_get hnod (valF_mem F hy)] at h2
  cases h2
  exact ⟨h1, h3⟩

/-- keys without surrogates -/
theorem keys_unique {F : FloatCodec} {m : List (Bytes × Tree)} (hp : m.Pairwise (fun a b => ¬ ∃ s, StrSays s a.1 ∧ StrSays s b.1))
    (h : ∀ y ∈ m, NoSurrogates y.1) : ((valF F m).map (·.1)).Nodup := by
  rw [valF_keys]
  induction m with
  | nil => exact List.nodup_nil
  | cons x m ih =>
    rw [List.pairwise_cons] at hp
    refine List.nodup_cons.2 ⟨fun hx => ?_, ih hp.2 fun y hy => h y (List.mem_cons_of_mem _ hy)⟩
    obtain ⟨y, hy, e⟩ := List.mem_map.1 hx
    refine hp.1 y hy ⟨Json.unq x.1, noSurrogates_says (h x (List.mem_cons_self ..)), ?_⟩
    rw [show Json.unq x.1 = Json.unq y.1 from e.symm]; exact noSurrogates_says (h y (List.mem_cons_of_mem _ hy))

theorem allF_iff {p q : Bytes → Prop} {m : List (Bytes × Tree)} : AllF p q m ↔ ∀ y ∈ m, q y.1 ∧ y.2.All p q := by
  induction m with
  | nil => simp [AllF]
  | cons x m ih => obtain ⟨k, T⟩ := x; simp [AllF, ih, and_assoc]

theorem meansM_iff {F : FloatCodec} {m : List (Bytes × Tree)} {kvs : List (Bytes × Val)} :
    MeansM F m kvs ↔ ∀ y ∈ m, ∃ s v, StrSays s y.1 ∧ mapGet kvs s = some v ∧ y.2.Means F v := by
  induction m with
  | nil => simp [MeansM]
  | cons x m ih => obtain ⟨k, T⟩ := x; simp [MeansM, ih]

theorem valF_from {F : FloatCodec} {m : List (Bytes × Tree)} {x : Bytes × Val} (h : x ∈ valF F m) : ∃ y ∈ m, x.1 = Json.unq y.1 := by
  have : x.1 ∈ (valF F m).map (·.1) := List.mem_map_of_mem h
  rw [valF_keys] at this
  obtain ⟨y, hy, e⟩ := List.mem_map.1 this
  exact ⟨y, hy, e.symm⟩

/-- everything fits -/
abbrev Tree.Fits (F : FloatCodec) (T : Tree) : Prop := T.All (NumFits F) NoSurrogates
abbrev FitsL (F : FloatCodec) (l : List Tree) : Prop := AllL (NumFits F) NoSurrogates l
abbrev FitsF (F : FloatCodec) (m : List (Bytes × Tree)) : Prop := AllF (NumFits F) NoSurrogates m

mutual
theorem fits_means {F : FloatCodec} : ∀ (T : Tree), T.Unique → Tree.Fits F T → T.Means F (val F T)
  | .null, _, _ => by simp [Tree.Means, val]
  | .bool _, _, _ => by simp [Tree.Means, val]
  | .str t, _, h => by
    simp only [Tree.Fits, Tree.All] at h
    simp only [Tree.Means, val]
    exact ⟨_, noSurrogates_says h, rfl⟩
  | .num t, _, h => by
    simp only [Tree.Fits, Tree.All] at h
    obtain ⟨v, h1, h2⟩ := numFits_val h
    simp only [Tree.Means, val, h1]
    exact h2
  | .arr l, hu, h => by
    simp only [Tree.Fits, Tree.All] at h
    simp only [Tree.Unique] at hu
    simp only [Tree.Means, val]
    exact ⟨_, rfl, fits_meansL l hu h⟩
  | .obj m, hu, h => by
    simp only [Tree.Fits, Tree.All] at h
    simp only [Tree.Unique] at hu
    have hs : ∀ y ∈ m, NoSurrogates y.1 := fun y hy => (allF_iff.1 h y hy).1
    have hn := keys_unique (F := F) hu.1 hs
    simp only [Tree.Means, val]
    refine ⟨_, rfl, meansM_iff.2 fun y hy => ⟨_, _, noSurrogates_says (hs y hy), mapOf_get hn (valF_mem F hy), fits_meansF m hu.2 h y hy⟩, ?_⟩
    intro x hx
    obtain ⟨y, hy, e⟩ := valF_from (mapOf_mem hx)
    exact ⟨y, hy, by rw [e]; exact noSurrogates_says (hs y hy)⟩
theorem fits_meansL {F : FloatCodec} : ∀ (l : List Tree), UniqueL l → FitsL F l → MeansL F l (valL F l)
  | [], _, _ => by simp [MeansL, valL]
  | T :: l, hu, h => by
    simp only [MeansL, valL]
    exact ⟨_, _, rfl, fits_means T hu.1 h.1, fits_meansL l hu.2 h.2⟩
theorem fits_meansF {F : FloatCodec} : ∀ (m : List (Bytes × Tree)), UniqueF m → FitsF F m → ∀ y ∈ m, y.2.Means F (val F y.2)
  | [], _, _ => by simp
  | (k, T) :: m, hu, h => by
    intro y hy
    rcases List.mem_cons.1 hy with rfl | hy
    · exact fits_means T hu.1 h.2.1
    · exact fits_meansF m hu.2 h.2.2 y hy
end

mutual
theorem means_fits {F : FloatCodec} : ∀ (T : Tree), T.Unique → Tree.Nums F T → T.Means F (val F T) → Tree.Fits F T
  | .null, _, _, _ => by simp [Tree.All]
  | .bool _, _, _, _ => by simp [Tree.All]
  | .str t, _, _, h => by
    simp only [Tree.Means, val] at h
    obtain ⟨s, h1, h2⟩ := h
    cases h2
    simp only [Tree.Fits, Tree.All]
    exact says_unq h1
  | .num t, _, hn, _ => by simpa only [Tree.Fits, Tree.Nums, Tree.All] using hn
  | .arr l, hu, hn, h => by
    simp only [Tree.Means, val] at h
    obtain ⟨vs, h1, h2⟩ := h
    cases h1
    simp only [Tree.Fits, Tree.All]
    exact means_fitsL l (by simpa only [Tree.Unique] using hu) (by simpa only [Tree.Nums, Tree.All] using hn) h2
  | .obj m, hu, hn, h => by
    simp only [Tree.Unique] at hu
    simp only [Tree.Means, val] at h
    obtain ⟨kvs, h1, h2, _⟩ := h
    cases h1
    simp only [Tree.Fits, Tree.All]
    exact means_fitsF m hu.2 (by simpa only [Tree.Nums, Tree.All] using hn) (keys_plain hu.1 h2)
theorem means_fitsL {F : FloatCodec} : ∀ (l : List Tree), UniqueL l → NumsL F l → MeansL F l (valL F l) → FitsL F l
  | [], _, _, _ => by simp [AllL]
  | T :: l, hu, hn, h => by
    simp only [MeansL, valL] at h
    obtain ⟨v, r, e, h1, h2⟩ := h
    cases e
    exact ⟨means_fits T hu.1 hn.1 h1, means_fitsL l hu.2 hn.2 h2⟩
theorem means_fitsF {F : FloatCodec} : ∀ (m : List (Bytes × Tree)), UniqueF m → NumsF F m → (∀ y ∈ m, NoSurrogates y.1 ∧ y.2.Means F (val F y.2)) → FitsF F m
  | [], _, _, _ => by simp [AllF]
  | (k, T) :: m, hu, hn, h => by
    have h0 := h (k, T) (List.mem_cons_self ..)
    exact ⟨h0.1, means_fits T hu.1 hn.2.1 h0.2, means_fitsF m hu.2 hn.2.2 fun y hy => h y (List.mem_cons_of_mem _ hy)⟩
end

mutual
theorem fits_nums {F : FloatCodec} : ∀ (T : Tree), Tree.Fits F T → Tree.Nums F T
  | .null, _ => by simp [Tree.All]
  | .bool _, _ => by simp [Tree.All]
  | .str _, _ => by simp [Tree.All]
  | .num _, h => by simpa only [Tree.Fits, Tree.Nums, Tree.All] using h
  | .arr l, h => by simp only [Tree.Fits, Tree.Nums, Tree.All] at *; exact fits_numsL l h
  | .obj m, h => by simp only [Tree.Fits, Tree.Nums, Tree.All] at *; exact fits_numsF m h
theorem fits_numsL {F : FloatCodec} : ∀ (l : List Tree), FitsL F l → NumsL F l
  | [], _ => by simp [AllL]
  | T :: l, h => ⟨fits_nums T h.1, fits_numsL l h.2⟩
theorem fits_numsF {F : FloatCodec} : ∀ (m : List (Bytes × Tree)), FitsF F m → NumsF F m
  | [], _ => by simp [AllF]
  | (k, T) :: m, h => ⟨trivial, fits_nums T h.2.1, fits_numsF m h.2.2⟩
end

theorem fits_meansF' {F : FloatCodec} : ∀ (m : List (Bytes × Tree)), UniqueF m → FitsF F m → MeansF F m (valF F m)
  | [], _, _ => by simp [MeansF, valF]
  | (k, T) :: m, hu, h => by
    simp only [MeansF, valF]
    exact ⟨_, _, _, rfl, noSurrogates_says h.1, fits_means T hu.1 h.2.1, fits_meansF' m hu.2 h.2.2⟩

theorem means_fitsF' {F : FloatCodec} : ∀ (m : List (Bytes × Tree)), UniqueF m → NumsF F m → MeansF F m (valF F m) → FitsF F m
  | [], _, _, _ => by simp [AllF]
  | (k, T) :: m, hu, hn, h => by
    simp only [MeansF, valF] at h
    obtain ⟨s, v, r, e, h1, h2, h3⟩ := h
    cases e
    exact ⟨says_unq h1, means_fits T hu.1 hn.2.1 h2, means_fitsF' m hu.2 hn.2.2 h3⟩

/-- C88: whatever the size of the buffer and the portions in which the bytes arrive, an array that anybody wrote, in which no object has two equal keys, is
delivered for what it stands for if and only if its integers fit 64 bits, its other numbers are floating point numbers, and no string and no key has an
escaped surrogate. -/
theorem C88_array (F : FloatCodec) (E : Env) (size : Nat) (reads : List Nat) (l : List Tree) (w t r : Bytes) (hw : WS w) (h : Spells (.arr l) t) (hu : UniqueL l) :
    (∃ vs, readAll F E .array size reads (w ++ (t ++ r)) = (indexed 0 vs, .eof) ∧ MeansL F l vs) ↔ AllL (NumFits F) NoSurrogates l := by
  constructor
  · rintro ⟨vs, h1, h2⟩
    have hi : IntsFitL vs := indexed_ints (i := 0) fun e he => readLoop_ints F E .array _ _ e (by
      have := congrArg Prod.fst h1
      unfold readAll at this
      rw [this]; exact he)
    have hn := nums_meansL l vs h2 hi
    rw [readAll_spellsL F E size reads hw h hn r, Prod.mk.injEq] at h1
    rw [← indexed_inj h1.1] at h2
    exact means_fitsL l hu hn h2
  · intro hf
    exact ⟨_, readAll_spellsL F E size reads hw h (fits_numsL l hf) r, fits_meansL l hu hf⟩

/-- an escaped pair of surrogates and what it stands for -/
theorem says_smile : StrSays [0xF0, 0x9F, 0x98, 0x80] b!"\\ud83d\\ude00" :=
  .pair 100 56 51 100 100 101 48 48 0xD83D 0xDE00 ⟨13, 8, 3, 13, by decide⟩ ⟨13, 14, 0, 0, by decide⟩ (by decide) (by decide) (by decide) (by decide) .nil

/-- the text of one element, what it stands for, and what is delivered: two question marks -/
example : Spells (.arr [.str b!"\\ud83d\\ude00"]) b!"[\"\\ud83d\\ude00\"]" ∧
    MeansL exF [.str b!"\\ud83d\\ude00"] [.str [0xF0, 0x9F, 0x98, 0x80]] ∧
    readAll exF exE .array 16 [3, 0, 1] b!"[\"\\ud83d\\ude00\"]" = ([{ index := 0, value := .str b!"??" }], .eof) := by
  refine ⟨.arr _ _ (.one _ [] b!"\"\\ud83d\\ude00\"" [] (by simp [WS]) (.str _ ?_) (by simp [WS])), ?_, by decide +kernel⟩
  · exact .uni 100 56 51 100 (by decide) (by decide) (by decide) (by decide) (.uni 100 101 48 48 (by decide) (by decide) (by decide) (by decide) .nil)
  · simp only [MeansL, Tree.Means]
    exact ⟨_, _, rfl, ⟨_, says_smile, rfl⟩, rfl⟩

/-- an integer of 64 bits and one that is none; a number that does not fit is an error, but not as the first element of an inner array -/
example : readAll exF exE .array 16 [] b!"[ -9223372036854775808 ]" = ([{ index := 0, value := .int (-9223372036854775808) }], .eof) ∧
    readAll exF exE .array 16 [] b!"[9223372036854775808]" = ([], .err .atoi) ∧
    readAll exF exE .array 16 [] b!"[[9223372036854775808" = ([{ index := 0, value := .arr [] }], .err .separator) := by decide +kernel

/-- two keys that become one -/
example : readAll exF exE .array 16 [] b!"[{\"\\ud83d\\ude00\":1,\"\\ud83d\\ude01\":2}]" = ([{ index := 0, value := .obj [(b!"??", .int 2)] }], .eof) := by
  decide +kernel

/-- C88 for objects: the members are delivered in the order of the text, with repeated keys. -/
theorem C88_object (F : FloatCodec) (E : Env) (size : Nat) (reads : List Nat) (m : List (Bytes × Tree)) (w t r : Bytes) (hw : WS w) (h : Spells (.obj m) t) (hu : UniqueF m) :
    (∃ kvs, readAll F E .object size reads (w ++ (t ++ r)) = (keyed kvs, .eof) ∧ MeansF F m kvs) ↔ AllF (NumFits F) NoSurrogates m := by
  constructor
  · rintro ⟨kvs, h1, h2⟩
    have hi : IntsFitM kvs := keyed_ints fun e he => readLoop_ints F E .object _ _ e (by
      have := congrArg Prod.fst h1
      unfold readAll at this
      rw [this]; exact he)
    have hn := nums_meansF m kvs h2 hi
    rw [readAll_spellsF F E size reads hw h hn r, Prod.mk.injEq] at h1
    rw [← keyed_inj h1.1] at h2
    exact means_fitsF' m hu hn h2
  · intro hf
    exact ⟨_, readAll_spellsF F E size reads hw h (fits_numsF m hf) r, fits_meansF' m hu hf⟩

example : readAll exF exE .object 16 [1, 2] b!" {\"a\":\"\\u00e9\", \"a\":[true , null]}x" =
    ([{ key := b!"a", value := .str [0xC3, 0xA9] }, { key := b!"a", value := .arr [.bool true, .null] }], .eof) ∧
    readAll exF exE .object 16 [] b!"{\"\\ud83d\\ude00\":1}" = ([{ key := b!"??", value := .int 1 }], .eof) := by decide +kernel

/-! ### Surrogates -/

mutual
theorem asked_val (F : FloatCodec) : ∀ {T : Tree} {t : Bytes}, Spells T t → Tree.Nums F T → val F T.asked = val F T ∧ Tree.Fits F T.asked
  | _, _, .null, _ => by simp [Tree.asked, Tree.All]
  | _, _, .true, _ => by simp [Tree.asked, Tree.All]
  | _, _, .false, _ => by simp [Tree.asked, Tree.All]
  | _, _, .num t _, hn => by simpa only [Tree.asked, true_and, Tree.Fits, Tree.Nums, Tree.All] using hn
  | _, _, .str t h, _ => by
    simp only [Tree.asked, val, Tree.Fits, Tree.All, (ask_read h).1, true_and]; exact (ask_read h).2
  | _, _, .arr0 _ _, _ => by simp [Tree.asked, Tree.All, askedL, AllL]
  | _, _, .arr l t h, hn => by
    have := asked_valL F h (by simpa only [Tree.Nums, Tree.All] using hn)
    simp only [Tree.asked, val, Tree.Fits, Tree.All, this.1, true_and]; exact this.2
  | _, _, .obj0 _ _, _ => by simp [Tree.asked, Tree.All, askedF, AllF]
  | _, _, .obj m t h, hn => by
    have := asked_valF F h (by simpa only [Tree.Nums, Tree.All] using hn)
    simp only [Tree.asked, val, Tree.Fits, Tree.All, this.1, true_and]; exact this.2
theorem asked_valL (F : FloatCodec) : ∀ {l : List Tree} {t : Bytes}, SpellsL l t → NumsL F l → valL F (askedL l) = valL F l ∧ FitsL F (askedL l)
  | _, _, .one T w t w' _ ht _, hn => by
    have := asked_val F ht hn.1
    exact ⟨by simp [askedL, valL, this.1], this.2, trivial⟩
  | _, _, .cons T w t w' l t' _ ht _ hl, hn => by
    have h1 := asked_val F ht hn.1
    have h2 := asked_valL F hl hn.2
    exact ⟨by simp [askedL, valL, h1.1, h2.1], h1.2, h2.2⟩
theorem asked_valF (F : FloatCodec) : ∀ {m : List (Bytes × Tree)} {t : Bytes}, SpellsF m t → NumsF F m → valF F (askedF m) = valF F m ∧ FitsF F (askedF m)
  | _, _, .one k T w w1 w2 t w' _ hk _ _ ht _, hn => by
    have := asked_val F ht hn.2.1
    exact ⟨by simp [askedF, valF, this.1, (ask_read hk).1], (ask_read hk).2, this.2, trivial⟩
  | _, _, .cons k T w w1 w2 t w' m t' _ hk _ _ ht _ hm, hn => by
    have h1 := asked_val F ht hn.2.1
    have h2 := asked_valF F hm hn.2.2
    exact ⟨by simp [askedF, valF, h1.1, h2.1, (ask_read hk).1], (ask_read hk).2, h1.2, h2.2⟩
end

/-- C88: an array whose numbers fit is delivered in full; each escape of a surrogate is delivered as a question mark. -/
theorem C88_question_marks (F : FloatCodec) (E : Env) (size : Nat) (reads : List Nat) (l : List Tree) (w t r : Bytes) (hw : WS w) (h : Spells (.arr l) t)
    (hn : AllL (NumFits F) (fun _ => True) l) (hu : UniqueL (askedL l)) :
    ∃ vs, readAll F E .array size reads (w ++ (t ++ r)) = (indexed 0 vs, .eof) ∧ MeansL F (askedL l) vs := by
  refine ⟨valL F l, readAll_spellsL F E size reads hw h hn r, ?_⟩
  cases h with
  | arr0 => simp [askedL, MeansL, valL]
  | arr _ u hu' =>
    have := asked_valL F hu' hn
    rw [← this.1]
    exact fits_meansL _ hu this.2

example : ask b!"a\\\\ud83d\\ud83d\\ude00\\u00e9b" = b!"a\\\\ud83d??\\u00e9b" ∧
    readAll exF exE .array 16 [] b!"[\"a\\\\ud83d\\ud83d\\ude00\\u00e9b\", 7]" =
      ([{ index := 0, value := .str [97, 92, 117, 100, 56, 51, 100, 63, 63, 0xC3, 0xA9, 98] }, { index := 1, value := .int 7 }], .eof) := by decide +kernel

/-- C88: the same for objects. -/
theorem C88_question_keys (F : FloatCodec) (E : Env) (size : Nat) (reads : List Nat) (m : List (Bytes × Tree)) (w t r : Bytes) (hw : WS w) (h : Spells (.obj m) t)
    (hn : AllF (NumFits F) (fun _ => True) m) (hu : UniqueF (askedF m)) :
    ∃ kvs, readAll F E .object size reads (w ++ (t ++ r)) = (keyed kvs, .eof) ∧ MeansF F (askedF m) kvs := by
  refine ⟨valF F m, readAll_spellsF F E size reads hw h hn r, ?_⟩
  cases h with
  | obj0 => simp [askedF, MeansF, valF]
  | obj _ u hu' =>
    have := asked_valF F hu' hn
    rw [← this.1]
    exact fits_meansF' _ hu this.2

/-! ### Which numbers fit -/

theorem intPart_noFloat {ds u : Bytes} (hu : FracExp u) (h : IntPart (ds ++ u)) : False := by
  have h1 := any_float_digits (intPart_digits h)
  rw [List.any_append, (fracExp_num hu).2, Bool.or_true] at h1
  cases h1

theorem intPart_minus {t : Bytes} (h : IntPart (45 :: t)) : False := by
  have := intPart_digits h 45 (List.mem_cons_self ..)
  revert this; decide

/-- C88: integers fit if they are 64-bit integers. -/
theorem C88_integers (F : FloatCodec) (t : Bytes) (n : Nat) (ht : IntPart t) (hn : parseNat t = some n) :
    (NumFits F t ↔ IsInt64 n) ∧ (NumFits F (45 :: t) ↔ IsInt64 (-n)) := by
  refine ⟨⟨?_, fun h => ⟨_, .inl ⟨n, ht, hn, rfl⟩, by rintro i ⟨⟩; exact h⟩⟩, ⟨?_, fun h => ⟨_, .inr (.inl ⟨t, n, rfl, ht, hn, rfl⟩), by rintro i ⟨⟩; exact h⟩⟩⟩
  · rintro ⟨v, h | h | h, hi⟩
    · obtain ⟨n', _, h2, rfl⟩ := h
      rw [hn] at h2; cases h2
      exact hi _ rfl
    · obtain ⟨ds, n', rfl, _⟩ := h
      exact (intPart_minus ht).elim
    · obtain ⟨sign, ds, u, x, hs, hd, hu, rfl, _⟩ := h
      rw [← List.append_assoc] at ht
      exact (intPart_noFloat hu ht).elim
  · rintro ⟨v, h | h | h, hi⟩
    · obtain ⟨n', h1, _⟩ := h
      exact (intPart_minus h1).elim
    · obtain ⟨ds, n', e, _, h2, rfl⟩ := h
      cases e
      rw [hn] at h2; cases h2
      exact hi _ rfl
    · obtain ⟨sign, ds, u, x, hs, hd, hu, e, _⟩ := h
      rcases hs with rfl | rfl
      · obtain ⟨c, t', rfl, hc⟩ := intPart_ne hd
        cases e
        exact absurd hc (by decide)
      · cases e
        exact (intPart_noFloat hu ht).elim

/-- C88: numbers with a fraction or an exponent fit unless they are too large for a float. -/
theorem C88_fractions (sign ds u xs : Bytes) (neg : Bool) (m : ℕ) (e : ℤ) (hs : sign = [] ∨ sign = [45]) (hd : IntPart ds) (hu : FracExp u)
    (h : FloatText.Decimal (sign ++ (ds ++ u)) xs neg m e) (hl : (sign ++ (ds ++ u)).length ≤ 9000) :
    NumFits FloatText.goF (sign ++ (ds ++ u)) ↔ |FloatText.dec neg m e| < 2 ^ 1024 - 2 ^ 970 := by
  rw [← not_le, ← FloatText.C81_range h hl]
  constructor
  · rintro ⟨v, h1 | h1 | h1, -⟩
    · obtain ⟨n, h2, _⟩ := h1
      rw [← List.append_assoc] at h2
      exact (intPart_noFloat hu h2).elim
    · obtain ⟨ds', n, e', h2, _⟩ := h1
      rcases hs with rfl | rfl
      · obtain ⟨c, t', rfl, hc⟩ := intPart_ne hd
        cases e'
        exact absurd hc (by decide)
      · cases e'
        exact (intPart_noFloat hu h2).elim
    · obtain ⟨_, _, _, x, _, _, _, _, h2, _⟩ := h1
      have h2' : FloatText.parse64 (sign ++ (ds ++ u)) = some x := h2
      rw [h2']; simp
  · intro h1
    obtain ⟨x, hx⟩ := Option.ne_none_iff_exists'.1 h1
    exact ⟨.f64 x, .inr (.inr ⟨sign, ds, u, x, hs, hd, hu, rfl, hx, rfl⟩), by rintro i ⟨⟩⟩

example : NumFits FloatText.goF b!"0.25" ∧ ¬ NumFits FloatText.goF b!"2e308" ∧ ¬ NumFits FloatText.goF b!"-9223372036854775809" := by
  have h1 : FloatText.Decimal b!"0.25" [] false 25 (-2) := .mk [] b!"0" b!".25" b!"25" [] [] 0 (.inl rfl) (by unfold JsonG.Digits; decide) (.some _ (by unfold JsonG.Digits; decide)) (by decide) .none
  have h2 : FloatText.Decimal b!"2e308" b!"308" false 2 308 := .mk [] b!"2" [] [] b!"e308" b!"308" 308 (.inl rfl) (by unfold JsonG.Digits; decide) .none (by decide)
    (.pos 101 [] b!"308" (.inl rfl) (.inl rfl) (by decide) (by unfold JsonG.Digits; decide))
  refine ⟨?_, ?_, ?_⟩
  · have := C88_fractions [] b!"0" b!".25" [] false 25 (-2) (.inl rfl) .zero (.frac _ (by decide) (by unfold JsonG.Digits; decide)) h1 (by decide)
    refine this.2 ?_
    have h : ((2 ^ 970 + 1 : ℕ) : ℚ) ≤ ((2 ^ 1024 : ℕ) : ℚ) := Nat.cast_le.2 (by decide +kernel)
    rw [Nat.cast_add, Nat.cast_pow, Nat.cast_pow, Nat.cast_one, Nat.cast_ofNat] at h
    have h' : |FloatText.dec false 25 (-2)| < 1 := by norm_num [FloatText.dec]
    exact lt_of_lt_of_le h' (le_sub_iff_add_le'.2 h)
  · have := C88_fractions [] b!"2" b!"e308" b!"308" false 2 308 (.inl rfl) (.nonzero 50 [] (by decide) (by decide) (by simp [Digits]))
      (.exp 101 [] b!"308" (.inl rfl) (.inl rfl) (by decide) (by unfold JsonG.Digits; decide)) h2 (by decide)
    refine fun h => absurd (this.1 h) (not_lt.2 ?_)
    have h : ((2 ^ 1024 : ℕ) : ℚ) ≤ ((2 * 10 ^ 308 + 2 ^ 970 : ℕ) : ℚ) := Nat.cast_le.2 (by decide +kernel)
    rw [Nat.cast_add, Nat.cast_mul, Nat.cast_pow, Nat.cast_pow, Nat.cast_pow, Nat.cast_ofNat, Nat.cast_ofNat] at h
    have h' : |FloatText.dec false 2 308| = 2 * 10 ^ 308 := by
      simp [FloatText.dec]
    rw [h']
    exact sub_le_iff_le_add.2 h
  · have := (C88_integers FloatText.goF b!"9223372036854775809" 9223372036854775809 (.nonzero 57 _ (by decide) (by decide) (by unfold Digits; decide)) (by decide)).2
    exact fun h => absurd (this.1 h) (by decide)

/-! ### The dialect -/

theorem lax_scan {s t : Bytes} (h : Lax s t) (r : Bytes) : scanStr (t ++ 34 :: r) = some (t, r) ∧ JsonClean.escapesWhole t = true ∧ Json.unq t = s := by
  have ne : ∀ {a : UInt8}, a ∉ [(34 : UInt8), 92] → a ≠ 92 ∧ a ≠ 34 := by
    intro a h; simp only [List.mem_cons, List.not_mem_nil, or_false, not_or] at h; exact ⟨h.2, h.1⟩
  have hx : ∀ {a b c d : UInt8} {n : Nat}, Hex4 a b c d n → a ∉ [(34 : UInt8), 92] ∧ b ∉ [(34 : UInt8), 92] ∧ c ∉ [(34 : UInt8), 92] ∧ d ∉ [(34 : UInt8), 92] := by
    rintro a b c d n ⟨n1, n2, n3, n4, h1, h2, h3, h4, _⟩
    have g : ∀ {a : UInt8} {n : Nat}, hexVal a = some n → a ∉ [(34 : UInt8), 92] := by
      intro a n h; have := hexVal_range h; simp [this.1, this.2.1]
    exact ⟨g h1, g h2, g h3, g h4⟩
  have s6 : ∀ {a b c d : UInt8} {t : Bytes}, a ∉ [(34 : UInt8), 92] → b ∉ [(34 : UInt8), 92] → c ∉ [(34 : UInt8), 92] → d ∉ [(34 : UInt8), 92] →
      scanStr (t ++ 34 :: r) = some (t, r) → scanStr (92 :: 117 :: a :: b :: c :: d :: t ++ 34 :: r) = some (92 :: 117 :: a :: b :: c :: d :: t, r) := by
    intro a b c d t h1 h2 h3 h4 h
    simp only [List.cons_append]
    rw [scanStr_esc, scanStr_plain _ (ne h1).1 (ne h1).2, scanStr_plain _ (ne h2).1 (ne h2).2, scanStr_plain _ (ne h3).1 (ne h3).2,
      scanStr_plain _ (ne h4).1 (ne h4).2, h]
    rfl
  have s4 : ∀ {a b : UInt8} {t : Bytes}, a ∉ [(34 : UInt8), 92] → b ∉ [(34 : UInt8), 92] →
      scanStr (t ++ 34 :: r) = some (t, r) → scanStr (92 :: 120 :: a :: b :: t ++ 34 :: r) = some (92 :: 120 :: a :: b :: t, r) := by
    intro a b t h1 h2 h
    simp only [List.cons_append]
    rw [scanStr_esc, scanStr_plain _ (ne h1).1 (ne h1).2, scanStr_plain _ (ne h2).1 (ne h2).2, h]
    rfl
  have w6 : ∀ {a b c d : UInt8} {t : Bytes}, JsonClean.escapesWhole t = true → JsonClean.escapesWhole (92 :: 117 :: a :: b :: c :: d :: t) = true := by
    intro a b c d t h; rw [JsonClean.escapesWhole.eq_def]; simp [h]
  have w4 : ∀ {a b : UInt8} {t : Bytes}, JsonClean.escapesWhole t = true → JsonClean.escapesWhole (92 :: 120 :: a :: b :: t) = true := by
    intro a b t h; rw [JsonClean.escapesWhole.eq_def]; simp [h]
  have u4 : ∀ {a b : UInt8} {t : Bytes}, Json.unq (92 :: 120 :: a :: b :: t) = xEscape a b ++ Json.unq t := by
    intro a b t; rw [Json.unq.eq_def]; simp
  induction h with
  | nil => exact ⟨by rw [List.nil_append, scanStr.eq_def]; simp, rfl, by simp [Json.unq]⟩
  | plain c h1 h2 _ ih =>
    refine ⟨by rw [List.cons_append, scanStr_plain _ h2 h1, ih.1]; rfl, ?_, by rw [unq_plain c h2, ih.2.2]⟩
    rw [JsonClean.escapesWhole.eq_def]; simp [h2, ih.2.1]
  | esc e c h _ ih =>
    have h' := simpleEscape_esc _ h
    refine ⟨by simp only [List.cons_append]; rw [scanStr_esc, ih.1]; rfl, ?_, by rw [unq_esc h'.1 h'.2.1, ih.2.2, h'.2.2]⟩
    rw [JsonClean.escapesWhole.eq_def]; simp [h'.1, h'.2.1, ih.2.1]
  | other e h _ ih =>
    simp only [List.mem_cons, List.not_mem_nil, or_false, not_or] at h
    obtain ⟨_, _, _, g1, g2, g3, g4, g5, g6, g7⟩ := h
    refine ⟨by simp only [List.cons_append]; rw [scanStr_esc, ih.1]; rfl, ?_, by rw [unq_esc g7 g6, ih.2.2]; simp [simpleEscape, g1, g2, g3, g4, g5]⟩
    rw [JsonClean.escapesWhole.eq_def]; simp [g6, g7, ih.2.1]
  | byte a b m n h1 h2 _ ih =>
    have g : ∀ {a : UInt8} {n : Nat}, hexVal a = some n → a ∉ [(34 : UInt8), 92] := by
      intro a n h; have := hexVal_range h; simp [this.1, this.2.1]
    refine ⟨s4 (g h1) (g h2) ih.1, w4 ih.2.1, ?_⟩
    rw [u4, ih.2.2]
    simp [xEscape, h1, h2, Nat.mul_comm]
  | noByte a b h1 h2 h3 _ ih =>
    refine ⟨s4 h1 h2 ih.1, w4 ih.2.1, ?_⟩
    rw [u4, ih.2.2]
    rcases h3 with h3 | h3 <;> simp only [xEscape, h3]
    · rfl
    · cases hexVal a <;> rfl
  | uni a b c d n h hv _ ih =>
    obtain ⟨g1, g2, g3, g4⟩ := hx h
    exact ⟨s6 g1 g2 g3 g4 ih.1, w6 ih.2.1, by rw [unq_uni, uEscape_hex h, if_pos hv, ih.2.2]⟩
  | surrogate a b c d n h h1 h2 _ ih =>
    obtain ⟨g1, g2, g3, g4⟩ := hx h
    exact ⟨s6 g1 g2 g3 g4 ih.1, w6 ih.2.1, by rw [unq_uni, uEscape_sur h h1 h2, ih.2.2]; rfl⟩
  | noUni a b c d g1 g2 g3 g4 h _ ih =>
    refine ⟨s6 g1 g2 g3 g4 ih.1, w6 ih.2.1, ?_⟩
    rw [unq_uni, ih.2.2]
    have : hex4 a b c d = none := by
      unfold hex4
      split
      · rename_i n1 n2 n3 n4 e1 e2 e3 e4
        exact absurd ⟨_, n1, n2, n3, n4, e1, e2, e3, e4, rfl⟩ h
      · rfl
    simp [uEscape, this]

/-- C88: strings in the dialect of the reader, which is wider than JSON. -/
theorem C88_dialect (F : FloatCodec) (E : Env) (size : Nat) (reads : List Nat) (s t r : Bytes) (h : Lax s t) :
    readAll F E .array size reads (91 :: 34 :: (t ++ 34 :: 93 :: r)) = ([{ index := 0, value := .str s }], .eof) := by
  obtain ⟨h1, h2, h3⟩ := lax_scan h (93 :: r)
  have hb : JsonClean.body F .array (91 :: 34 :: (t ++ 34 :: 93 :: r)) = ([{ index := 0, value := .str s }], true) := by
    have hv : JsonClean.value F (fuelFor (34 :: (t ++ 34 :: 93 :: r))) (34 :: (t ++ 34 :: 93 :: r)) = some (.str s, 93 :: r) := by
      rw [show fuelFor (34 :: (t ++ 34 :: 93 :: r)) = (fuelFor (34 :: (t ++ 34 :: 93 :: r)) - 1) + 1 by unfold fuelFor; omega]
      simp only [JsonClean.value, skipWS_cons (show isWhitespace 34 = false by decide)]
      rw [if_neg (by decide), if_neg (by decide), if_neg (by decide), if_pos trivial]
      unfold JsonClean.stringBody
      rw [h1, Option.bind_some]
      simp only
      rw [if_pos h2, h3]
      rfl
    simp [JsonClean.body, openCh, closeCh, token_self (show isWhitespace 91 = false by decide), token_ne (show isWhitespace 34 = false by decide) (show (34 : UInt8) ≠ 93 by decide),
      JsonClean.entry, hv, JsonClean.rest, token_self (show isWhitespace 93 = false by decide)]
  have := (readAll_clean F E .array size reads (91 :: 34 :: (t ++ 34 :: 93 :: r))).2 (by rw [hb])
  rw [hb] at this
  exact this

example : Lax [233, 63, 113, 9, 0xC3, 0xA9, 63] b!"\\xe9\\xg0\\q\t\\u00e9\\u00x0" :=
  .byte 101 57 14 9 (by decide) (by decide) (.noByte 103 48 (by decide) (by decide) (.inl (by decide)) (.other 113 (by decide) (.plain 9 (by decide) (by decide)
    (.uni 48 48 101 57 233 ⟨0, 0, 14, 9, by decide⟩ (by decide) (.noUni 48 48 120 48 (by decide) (by decide) (by decide) (by decide)
      (by rintro ⟨n, n1, n2, n3, n4, _, _, h, _⟩; rw [show hexVal 120 = none by decide] at h; cases h) .nil)))))

example : readAll exF exE .array 16 [5] b!"[\"\\xe9\\xg0\\q\t\\u00e9\\u00x0\"]" = ([{ index := 0, value := .str [233, 63, 113, 9, 0xC3, 0xA9, 63] }], .eof) := by
  decide +kernel

end Verif.JsonBuf
