import Verif.Model.Doc
/- Lemmas for the signing bytes (C01). -/
namespace Verif.Doc

theorem append_sep_inj {c : UInt8} {l l' r r' : Bytes} (h1 : c ∉ l) (h2 : c ∉ l') (h : l ++ c :: r = l' ++ c :: r') :
    l = l' ∧ r = r' := by
  induction l generalizing l' with
  | nil =>
    cases l' with
    | nil => simpa using h
    | cons d l' => simp at h; exact absurd h.1 (by intro e; exact h2 (by simp [e]))
  | cons d l ih =>
    cases l' with
    | nil => simp at h; exact absurd h.1 (by intro e; exact h1 (by simp [e]))
    | cons d' l' =>
      simp at h
      have := ih (l' := l') (by intro hh; exact h1 (by simp [hh])) (by intro hh; exact h2 (by simp [hh])) h.2
      exact ⟨by rw [h.1, this.1], this.2⟩

theorem joinLines_inj : ∀ {a b : List Bytes}, (∀ l ∈ a, 10 ∉ l ∧ l ≠ []) → (∀ l ∈ b, 10 ∉ l ∧ l ≠ []) →
    joinLines a = joinLines b → a = b
  | [], [], _, _, _ => rfl
  | [], [l], _, hb, h => by have := (hb l (by simp)).2; simp [joinLines] at h; exact absurd h (this)
  | [], l :: k :: ls, _, hb, h => by simp [joinLines] at h
  | [l], [], ha, _, h => by have := (ha l (by simp)).2; simp [joinLines] at h; exact absurd h this
  | l :: k :: ls, [], ha, _, h => by simp [joinLines] at h
  | [l], [l'], _, _, h => by simpa [joinLines] using h
  | [l], l' :: k :: ls, ha, _, h => by
    have := (ha l (by simp)).1
    simp only [joinLines] at h
    exact absurd (h ▸ (by simp : (10 : UInt8) ∈ l' ++ 10 :: joinLines (k :: ls))) this
  | l' :: k :: ls, [l], _, hb, h => by
    have := (hb l (by simp)).1
    simp only [joinLines] at h
    exact absurd (h ▸ (by simp : (10 : UInt8) ∈ l' ++ 10 :: joinLines (k :: ls))) this
  | l :: k :: ls, l' :: k' :: ls', ha, hb, h => by
    simp only [joinLines] at h
    have e := append_sep_inj (ha l (by simp)).1 (hb l' (by simp)).1 h
    have := joinLines_inj (a := k :: ls) (b := k' :: ls') (fun x hx => ha x (by simp [List.mem_cons.mp hx]))
      (fun x hx => hb x (by simp [List.mem_cons.mp hx])) e.2
    rw [e.1, this]

/-! ### Numbers and times -/

theorem padNat_digits (w n : Nat) : ∀ c ∈ padNat w n, isDigit c = true := by
  intro c hc
  simp only [padNat, List.mem_append, List.mem_replicate] at hc
  rcases hc with ⟨_, rfl⟩ | hc
  · decide
  · exact fmtNatF_digits n n c hc

theorem parseNatAux_zeros (k : Nat) (s : Bytes) : parseNatAux 0 (List.replicate k 48 ++ s) = parseNatAux 0 s := by
  induction k with
  | zero => rfl
  | succ k ih =>
    rw [List.replicate_succ, List.cons_append, parseNatAux, if_pos (by decide)]
    exact ih

theorem parse_padNat (w n : Nat) : parseNatAux 0 (padNat w n) = some n := by
  rw [padNat, parseNatAux_zeros]
  have := parseNat_fmtNat n
  rwa [parseNat_eq (show fmtNat n ≠ [] from fmtNatF_ne_nil _ _)] at this

theorem padNat_inj {w n m : Nat} (h : padNat w n = padNat w m) : n = m := by
  have h1 := parse_padNat w n
  rw [h, parse_padNat] at h1
  exact (Option.some.inj h1).symm

theorem fmtNat_length_le : ∀ n, n < 100 → (fmtNat n).length ≤ 2 := by decide

theorem padNat2_length {n : Nat} (h : n < 100) : (padNat 2 n).length = 2 := by
  have := fmtNat_length_le n h
  simp [padNat]; omega

theorem fmtYear_inj {x y : Int} (h : fmtYear x = fmtYear y) : x = y := by
  have nd : ∀ n, (45 : UInt8) ∉ padNat 4 n := fun n hc => absurd (padNat_digits 4 n 45 hc) (by decide)
  unfold fmtYear at h
  split at h <;> split at h
  · simp at h; have := padNat_inj h; omega
  · exact absurd (h ▸ (by simp)) (nd y.toNat)
  · exact absurd (h ▸ (by simp)) (nd x.toNat)
  · have := padNat_inj h; omega

/-- a time without its nanoseconds -/
def Time.toSecond (t : Time) : Time := { t with nanos := 0 }

theorem rfc3339_inj {t u : Time} (ht : t.Valid) (hu : u.Valid) (h : rfc3339 t = rfc3339 u) : t.toSecond = u.toSecond := by
  obtain ⟨t1, t2, t3, t4, t5, _⟩ := ht
  obtain ⟨u1, u2, u3, u4, u5, _⟩ := hu
  unfold rfc3339 at h
  simp only [List.append_assoc, List.cons_append] at h
  have len : ∀ {a b c d e : Bytes}, a.length = 2 → b.length = 2 → c.length = 2 → d.length = 2 → e.length = 2 →
      (45 :: (a ++ 45 :: (b ++ 84 :: (c ++ 58 :: (d ++ 58 :: (e ++ [90])))))).length = 16 := by
    intro a b c d e h1 h2 h3 h4 h5; simp [h1, h2, h3, h4, h5]
  have l1 := len (padNat2_length (n := t.month) (by omega)) (padNat2_length (n := t.day) (by omega))
    (padNat2_length (n := t.hour) (by omega)) (padNat2_length (n := t.minute) (by omega)) (padNat2_length (n := t.second) (by omega))
  have l2 := len (padNat2_length (n := u.month) (by omega)) (padNat2_length (n := u.day) (by omega))
    (padNat2_length (n := u.hour) (by omega)) (padNat2_length (n := u.minute) (by omega)) (padNat2_length (n := u.second) (by omega))
  obtain ⟨hy, h⟩ := List.append_inj' h (l1.trans l2.symm)
  have step : ∀ {c : UInt8} {n m : Nat} {r r' : Bytes}, n < 100 → m < 100 →
      c :: (padNat 2 n ++ r) = c :: (padNat 2 m ++ r') → n = m ∧ r = r' := by
    intro c n m r r' hn hm h
    simp only [List.cons.injEq, true_and] at h
    have := List.append_inj h (by rw [padNat2_length hn, padNat2_length hm])
    exact ⟨padNat_inj this.1, this.2⟩
  obtain ⟨e1, h⟩ := step (by omega) (by omega) h
  obtain ⟨e2, h⟩ := step (by omega) (by omega) h
  obtain ⟨e3, h⟩ := step (by omega) (by omega) h
  obtain ⟨e4, h⟩ := step (by omega) (by omega) h
  obtain ⟨e5, h⟩ := step (by omega) (by omega) h
  have e0 := fmtYear_inj hy
  simp only [Time.toSecond, Time.mk.injEq]
  exact ⟨e0, e1, e2, e3, e4, e5, trivial⟩

theorem rfc3339_noNL (t : Time) : (10 : UInt8) ∉ rfc3339 t := by
  have nd : ∀ w n, (10 : UInt8) ∉ padNat w n := fun w n hc => absurd (padNat_digits w n 10 hc) (by decide)
  have ny : (10 : UInt8) ∉ fmtYear t.year := by unfold fmtYear; split <;> simp [nd]
  simp [rfc3339, nd, ny]

theorem fmtYear_ne_nil (y : Int) : fmtYear y ≠ [] := by
  unfold fmtYear
  split
  · simp
  · intro h
    have := parse_padNat 4 y.toNat
    have hz : padNat 4 y.toNat ≠ [] := by simp [padNat, fmtNatF_ne_nil, fmtNat]
    exact hz h

theorem rfc3339_ne_nil (t : Time) : rfc3339 t ≠ [] := by
  simp [rfc3339]

/-! ### Lines -/

/-- the value of the line carrying a tag -/
def lineOf (tag : Bytes) (ls : List Bytes) : Bytes := ((ls.filter fun l => l.take 3 = tag).map (List.drop 3)).flatten

theorem lineOf_append (tag : Bytes) (a b : List Bytes) : lineOf tag (a ++ b) = lineOf tag a ++ lineOf tag b := by
  simp [lineOf]

/-- one optional line -/
def tagLine (tag v : Bytes) : List Bytes := if v = [] then [] else [tag ++ v]

theorem lineOf_same {tag v : Bytes} (h : tag.length = 3) : lineOf tag (tagLine tag v) = v := by
  unfold tagLine
  split
  · rename_i hv; simp [lineOf, hv]
  · simp [lineOf, ← h]

theorem lineOf_other {tag tag' v : Bytes} (h : tag'.length = 3) (hne : tag' ≠ tag) :
    lineOf tag (tagLine tag' v) = [] := by
  unfold tagLine
  split
  · simp [lineOf]
  · have : (tag' ++ v).take 3 = tag' := by rw [List.take_append_of_le_length (Nat.le_of_eq h.symm), ← h]; simp
    simp [lineOf, this, hne]

/-- the text of the commit time, empty if there is none -/
def Dataset.timeText (d : Dataset) : Bytes :=
  match d.commit with
  | some c => if c.timestamp.isZero then [] else rfc3339 c.timestamp
  | none => []

theorem sigLines_tag (d : Dataset) : d.sigLines =
    tagLine b!"id:" d.id ++ tagLine b!"bd:" d.bodyPath ++ tagLine b!"cm:" d.timeText ++
    tagLine b!"md:" ((d.meta_.map Meta.path).getD []) ++ tagLine b!"rm:" ((d.readme.map Readme.path).getD []) ++
    tagLine b!"st:" ((d.structure_.map Structure.path).getD []) ++ tagLine b!"tf:" ((d.transform.map Transform.path).getD []) ++
    tagLine b!"sa:" ((d.stats.map Stats.path).getD []) ++ tagLine b!"vz:" ((d.viz.map Viz.path).getD []) := by
  have hs : ∀ k v, sigLine k v = tagLine (kindType k ++ [58]) v := by
    intro k v; simp [sigLine, tagLine, componentTypePrefix]
  unfold Dataset.sigLines
  simp only [hs]
  cases hcm : d.commit with
  | none =>
    have ht : d.timeText = [] := by simp [Dataset.timeText, hcm]
    rw [ht]; rfl
  | some c =>
    by_cases hz : c.timestamp.isZero = true
    · have ht : d.timeText = [] := by simp [Dataset.timeText, hcm, hz]
      rw [ht]; simp only [hz, if_true]; rfl
    · have ht : d.timeText = rfc3339 c.timestamp := by simp [Dataset.timeText, hcm, hz]
      have hl : tagLine b!"cm:" d.timeText = [componentTypePrefix kindCommit (rfc3339 c.timestamp)] := by
        rw [ht, tagLine, if_neg (rfc3339_ne_nil _)]; rfl
      rw [hl]; simp only [hz]; rfl

end Verif.Doc
