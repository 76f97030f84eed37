import Verif.Model.Text
/-! # C29, C30, C31: splitting, lists and tables -/
set_option linter.unusedSimpArgs false
namespace Ginga

/-! ## Specification -/

/-- The pieces written one after the other with `c` between them. -/
def joined (c : Char) : List Str → Str
  | [] => []
  | [p] => p
  | p :: q :: t => p ++ c :: joined c (q :: t)

/-- Number of pieces of `s`: one per separator and one more for what follows the last separator,
if anything does. -/
def numPieces (c : Char) (s : Str) : Nat :=
  s.count c + (match s.getLast? with | none => 0 | some x => if x = c then 0 else 1)

/-- `t` is `p` without its leading and trailing blanks. -/
structure Trimmed (p t : Str) : Prop where
  parts : ∃ a b, p = a ++ t ++ b ∧ (∀ c ∈ a, blank c = true) ∧ (∀ c ∈ b, blank c = true)
  left : ∀ c, t.head? = some c → blank c = false
  right : ∀ c, t.getLast? = some c → blank c = false

/-! ## C29 -/

theorem splitGo_nosep (c : Char) (s : Str) : ∀ tok, c ∉ tok → ∀ p ∈ splitGo c tok s, c ∉ p := by
  induction s with
  | nil =>
    intro tok ht p hp
    simp only [splitGo] at hp
    split at hp
    · simp at hp
    · simp at hp; subst hp; exact ht
  | cons x s ih =>
    intro tok ht p hp
    simp only [splitGo] at hp
    split at hp
    · rcases List.mem_cons.1 hp with h | h
      · subst h; exact ht
      · exact ih [] (by simp) p h
    · next hx =>
      exact ih (tok ++ [x]) (by simp; exact ⟨ht, fun h => hx h.symm⟩) p hp

theorem joined_cons (c : Char) (p : Str) {l : List Str} (h : l ≠ []) : joined c (p :: l) = p ++ c :: joined c l := by
  cases l with
  | nil => exact absurd rfl h
  | cons q t => rfl

theorem splitGo_joined (c : Char) (s : Str) : ∀ tok,
    joined c (splitGo c tok s) = tok ++ s ∧ s.getLast? ≠ some c ∨
    joined c (splitGo c tok s) ++ [c] = tok ++ s ∧ s.getLast? = some c := by
  induction s with
  | nil =>
    intro tok
    left
    simp only [splitGo]
    split
    · next h => subst h; simp [joined]
    · simp [joined]
  | cons x s ih =>
    intro tok
    simp only [splitGo]
    split
    · next hx =>
      subst hx
      cases s with
      | nil => right; simp [splitGo, joined]
      | cons y t =>
        have hne : splitGo x [] (y :: t) ≠ [] := by
          intro h0
          rcases ih [] with h | h <;> rw [h0] at h <;> simp [joined] at h
          obtain ⟨⟨h1, h2⟩, h3⟩ := h
          subst h1; subst h2
          simp [splitGo] at h0
        rw [joined_cons _ _ hne, List.getLast?_cons_cons]
        rcases ih [] with ⟨h1, h2⟩ | ⟨h1, h2⟩
        · left; rw [h1]; simp; exact h2
        · right
          refine ⟨?_, h2⟩
          rw [List.append_assoc, List.cons_append, h1]; simp
    · next hx =>
      have := ih (tok ++ [x])
      cases s with
      | nil =>
        left
        simp [splitGo, joined, hx]
      | cons y t =>
        rw [List.getLast?_cons_cons]
        simpa using this

/-- The pieces contain no separator, and writing them with the separator in between gives back the
string, but for one trailing separator if there is one. -/
theorem C29_split (s : Str) (c : Char) :
    (∀ p ∈ split s c, c ∉ p) ∧
    (if s.getLast? = some c then joined c (split s c) ++ [c] else joined c (split s c)) = s := by
  refine ⟨splitGo_nosep c s [] (by simp), ?_⟩
  rcases splitGo_joined c s [] with ⟨h1, h2⟩ | ⟨h1, h2⟩
  · rw [if_neg h2]; exact h1
  · rw [if_pos h2]; exact h1

theorem splitGo_append (c : Char) (p : Str) (hp : c ∉ p) : ∀ (tok s : Str), splitGo c tok (p ++ s) = splitGo c (tok ++ p) s := by
  induction p with
  | nil => intro tok s; simp
  | cons x p ih =>
    intro tok s
    have hx : x ≠ c := fun h => hp (by simp [h])
    have := ih (fun h => hp (List.mem_cons_of_mem _ h)) (tok ++ [x]) s
    simp only [List.cons_append, splitGo, if_neg hx, this]
    simp

/-- Splitting undoes joining: separator-free pieces come back in order, provided the last one is not
empty or is followed by a separator. -/
theorem C29_join (c : Char) (ps : List Str) (h : ∀ p ∈ ps, c ∉ p) :
    (ps.getLast? ≠ some [] → split (joined c ps) c = ps) ∧
    (ps ≠ [] → split (joined c ps ++ [c]) c = ps) := by
  unfold split
  induction ps with
  | nil => exact ⟨fun _ => rfl, fun h => absurd rfl h⟩
  | cons p t ih =>
    have hp := h p (by simp)
    have iht := ih (fun q hq => h q (List.mem_cons_of_mem _ hq))
    cases t with
    | nil =>
      constructor
      · intro hl
        have : p ≠ [] := by intro h0; subst h0; simp at hl
        have e := splitGo_append c p hp [] []
        simp only [List.append_nil, List.nil_append] at e
        simp [joined, e, splitGo, this]
      · intro _
        have e := splitGo_append c p hp [] [c]
        simp only [List.nil_append] at e
        simp [joined, e, splitGo]
    | cons q t =>
      constructor
      · intro hl
        rw [List.getLast?_cons_cons] at hl
        rw [joined_cons _ _ (by simp), splitGo_append c p hp]
        simp [splitGo, iht.1 hl]
      · intro _
        rw [joined_cons _ _ (by simp), List.append_assoc, splitGo_append c p hp, List.cons_append]
        simp [splitGo, iht.2 (by simp)]

theorem C29_empty (c : Char) : split [] c = [] := rfl

example : split "a,,b,".toList ',' = ["a".toList, [], "b".toList] := by decide +kernel
example : split ",".toList ',' = [[]] := by decide +kernel

/-! ## C30 -/

theorem splitGo_length (c : Char) (s : Str) : ∀ tok, (splitGo c tok s).length =
    s.count c + (match s.getLast? with | none => if tok = [] then 0 else 1 | some x => if x = c then 0 else 1) := by
  induction s with
  | nil => intro tok; simp only [splitGo]; split <;> simp [*]
  | cons x s ih =>
    intro tok
    simp only [splitGo]
    split
    · next hx =>
      subst hx
      rw [List.length_cons, ih []]
      cases s with
      | nil => simp
      | cons y t =>
        obtain ⟨z, hz⟩ : ∃ z, (y :: t).getLast? = some z := ⟨_, List.getLast?_eq_some_getLast (by simp)⟩
        rw [List.getLast?_cons_cons, List.count_cons_self, hz]; dsimp only; omega
    · next hx =>
      rw [ih (tok ++ [x])]
      cases s with
      | nil => simp [hx]
      | cons y t =>
        obtain ⟨z, hz⟩ : ∃ z, (y :: t).getLast? = some z := ⟨_, List.getLast?_eq_some_getLast (by simp)⟩
        rw [List.getLast?_cons_cons, List.count_cons_of_ne hx, hz]

theorem dropWhile_split (p : Char → Bool) (s : Str) :
    ∃ a, s = a ++ s.dropWhile p ∧ ∀ c ∈ a, p c = true :=
  ⟨s.takeWhile p, (List.takeWhile_append_dropWhile).symm, fun c hc => by
    induction s with
    | nil => simp at hc
    | cons x t ih =>
      rw [List.takeWhile_cons] at hc
      split at hc
      · rcases List.mem_cons.1 hc with h | h
        · subst h; assumption
        · exact ih h
      · simp at hc⟩

theorem dropWhile_head (p : Char → Bool) (s : Str) (c : Char) (h : (s.dropWhile p).head? = some c) : p c = false := by
  induction s with
  | nil => simp at h
  | cons x t ih =>
    rw [List.dropWhile_cons] at h
    split at h
    · exact ih h
    · next hx => simp at h; subst h; simpa using hx

theorem strip_trimmed (p : Str) : Trimmed p (strip p) := by
  obtain ⟨b, hb, hb'⟩ := dropWhile_split blank p.reverse
  have hb2 : p = chomp p ++ b.reverse := by
    have := congrArg List.reverse hb
    rw [List.reverse_reverse, List.reverse_append] at this
    exact this
  obtain ⟨a, ha, ha'⟩ := dropWhile_split blank (chomp p)
  refine ⟨⟨a, b.reverse, ?_, ha', fun c hc => hb' c (by simpa using hc)⟩, ?_, ?_⟩
  · show p = a ++ (chomp p).dropWhile blank ++ b.reverse
    rw [← ha]; exact hb2
  · exact dropWhile_head blank _
  · intro c hc
    have h1 : (chomp p).getLast? = some c := by
      rw [ha, List.getLast?_append]
      have : (chomp p |>.dropWhile blank).getLast? = some c := hc
      rw [this]; rfl
    have h2 : (p.reverse.dropWhile blank).head? = some c := by
      rw [← h1, chomp, List.getLast?_reverse]
    exact dropWhile_head blank _ c h2

/-- A trimmed string is unique. -/
theorem Trimmed.unique {p t t' : Str} (h : Trimmed p t) (h' : Trimmed p t') (hne : t ≠ []) : t' = t := by
  obtain ⟨a, b, e, ha, hb⟩ := h.parts
  obtain ⟨a', b', e', ha', hb'⟩ := h'.parts
  have key : ∀ (a a' x y : Str), a ++ x = a' ++ y → (∀ c ∈ a, blank c = true) → (∀ c ∈ a', blank c = true) →
      (∀ c, x.head? = some c → blank c = false) → (∀ c, y.head? = some c → blank c = false) → x ≠ [] → y ≠ [] → a = a' ∧ x = y := by
    intro a
    induction a with
    | nil =>
      intro a' x y e _ h2 h3 _ hx hy
      cases a' with
      | nil => exact ⟨rfl, e⟩
      | cons z a' =>
        simp at e
        have := h3 z (by rw [e]; rfl)
        rw [h2 z (by simp)] at this; cases this
    | cons w a ih =>
      intro a' x y e h1 h2 h3 h4 hx hy
      cases a' with
      | nil =>
        simp at e
        have := h4 w (by rw [← e]; rfl)
        rw [h1 w (by simp)] at this; cases this
      | cons z a' =>
        simp at e
        obtain ⟨e1, e2⟩ := e
        obtain ⟨r1, r2⟩ := ih a' x y e2 (fun c hc => h1 c (by simp [hc])) (fun c hc => h2 c (by simp [hc])) h3 h4 hx hy
        exact ⟨by rw [e1, r1], r2⟩
  by_cases ht' : t' = []
  · -- then `p` is all blanks, but `t` is not
    exfalso
    subst ht'
    cases t with
    | nil => exact hne rfl
    | cons z t =>
      have hz := h.left z rfl
      have : z ∈ p := by rw [e]; simp
      rw [e'] at this
      simp at this
      rcases this with h0 | h0
      · rw [ha' z h0] at hz; cases hz
      · rw [hb' z h0] at hz; cases hz
  · have head_app : ∀ (u v : Str), u ≠ [] → (u ++ v).head? = u.head? := by
      intro u v hu; cases u with
      | nil => exact absurd rfl hu
      | cons _ _ => rfl
    have e1 : a ++ (t ++ b) = a' ++ (t' ++ b') := by
      rw [← List.append_assoc, ← List.append_assoc, ← e, ← e']
    have := key a a' (t ++ b) (t' ++ b') e1 ha ha' (by rw [head_app _ _ hne]; exact h.left)
      (by rw [head_app _ _ ht']; exact h'.left) (by simp [hne]) (by simp [ht'])
    have e2 := congrArg List.reverse this.2
    rw [List.reverse_append, List.reverse_append] at e2
    have := key b.reverse b'.reverse t.reverse t'.reverse e2 (by simpa using hb) (by simpa using hb')
      (by rw [List.head?_reverse]; exact h.right) (by rw [List.head?_reverse]; exact h'.right) (by simp [hne]) (by simp [ht'])
    have := congrArg List.reverse this.2
    simpa using this.symm

/-- `parse_list` accepts a string iff its number of pieces is within the bounds; the result is then
the list of the pieces without their outer blanks. -/
theorem C30_parse_list (s : Str) (c : Char) (min max : Nat) :
    ((parseList s c min max).isSome ↔ min ≤ numPieces c s ∧ numPieces c s ≤ max) ∧
    ∀ r, parseList s c min max = some r →
      r.length = numPieces c s ∧
      ∀ (i : Nat) (p : Str), (split s c)[i]? = some p → ∃ t, r[i]? = some t ∧ Trimmed p t := by
  have hl : (split s c).length = numPieces c s := by
    unfold split numPieces
    rw [splitGo_length]; simp
  have hf : ∀ (l : List Str) (i : Nat) (p : Str), l[i]? = some p → ∃ t, (l.map strip)[i]? = some t ∧ Trimmed p t := by
    intro l i p hp
    exact ⟨strip p, by rw [List.getElem?_map, hp]; rfl, strip_trimmed p⟩
  unfold parseList
  dsimp only
  rw [hl]
  constructor
  · split
    · next h => simp; omega
    · next h => simp; omega
  · intro r hr
    split at hr
    · cases hr
    · cases hr
      exact ⟨by simp [hl], hf _⟩

example : parseList " 1, 2 ,3 ,".toList ',' 3 4 = some ["1".toList, "2".toList, "3".toList] := by decide +kernel
example : parseList "1,2".toList ',' 3 4 = none := by decide +kernel

/-! ## C31 -/

/-- One entry `key='value'` of the textual form. -/
def entryStr (p : Str × Str) : Str := p.1 ++ '=' :: '\'' :: p.2 ++ ['\'']

/-- The textual form `{k1='v1',…,kn='vn'}` of a table. -/
def tableStr (l : List (Str × Str)) : Str := '{' :: joined ',' (l.map entryStr) ++ ['}']

/-- Keys and values that can be written: no separators; keys without outer blanks and not empty. -/
structure Writable (p : Str × Str) : Prop where
  key_ne : p.1 ≠ []
  key_sep : ',' ∉ p.1 ∧ '=' ∉ p.1
  val_sep : ',' ∉ p.2 ∧ '=' ∉ p.2
  key_left : ∀ c, p.1.head? = some c → blank c = false
  key_right : ∀ c, p.1.getLast? = some c → blank c = false

theorem strip_self {t : Str} (hne : t ≠ []) (hl : ∀ c, t.head? = some c → blank c = false)
    (hr : ∀ c, t.getLast? = some c → blank c = false) : strip t = t :=
  Trimmed.unique ⟨⟨[], [], by simp, by simp, by simp⟩, hl, hr⟩ (strip_trimmed t) hne

theorem entry_parse {p : Str × Str} (h : Writable p) :
    parseList (entryStr p) '=' 2 2 = some [p.1, '\'' :: p.2 ++ ['\'']] := by
  have hs : split (entryStr p) '=' = [p.1, '\'' :: p.2 ++ ['\'']] := by
    have := (C29_join '=' [p.1, '\'' :: p.2 ++ ['\'']] (by
      intro q hq
      simp at hq
      rcases hq with rfl | rfl
      · exact h.key_sep.2
      · simp; exact h.val_sep.2)).1 (by simp)
    have e : entryStr p = joined '=' [p.1, '\'' :: p.2 ++ ['\'']] := by simp [entryStr, joined]
    rw [e]; exact this
  have h1 := strip_self h.key_ne h.key_left h.key_right
  have h2 : strip ('\'' :: p.2 ++ ['\'']) = '\'' :: p.2 ++ ['\''] :=
    strip_self (by simp) (by intro c hc; simp at hc; subst hc; decide) (by
      intro c hc; rw [List.getLast?_append] at hc; simp at hc; subst hc; decide)
  unfold parseList
  dsimp only
  rw [hs]
  simp [h1]
  simpa using h2

theorem tableGo_entries (l : List (Str × Str)) (h : ∀ p ∈ l, Writable p) :
    ∀ tab, tableGo (l.map entryStr) tab = .ok (some (tab ++ l)) := by
  induction l with
  | nil => intro tab; simp [tableGo]
  | cons p t ih =>
    intro tab
    have hp := h p (by simp)
    have h1 := strip_self hp.key_ne hp.key_left hp.key_right
    have h2 : strip ('\'' :: p.2 ++ ['\'']) = '\'' :: p.2 ++ ['\''] :=
      strip_self (by simp) (by intro c hc; simp at hc; subst hc; decide) (by
        intro c hc; rw [List.getLast?_append] at hc; simp at hc; subst hc; decide)
    have h3 : quoted ('\'' :: p.2 ++ ['\'']) = .ok true := by
      unfold quoted; rw [List.getLast?_append]; simp
    have h4 : inner ('\'' :: p.2 ++ ['\'']) = p.2 := by unfold inner; simp
    simp only [List.map_cons, tableGo, entry_parse hp, h1, h2, h3, h4, Res.bind_ok, if_true]
    rw [ih (fun q hq => h q (List.mem_cons_of_mem _ hq))]
    simp

/-- Parsing the textual form of a table gives back its entries, in order. -/
theorem C31_roundtrip (l : List (Str × Str)) (h : ∀ p ∈ l, Writable p) :
    parseTable (tableStr l) = .ok (some l) := by
  have e0 : strip (tableStr l) = tableStr l :=
    strip_self (by simp [tableStr]) (by intro c hc; simp [tableStr] at hc; subst hc; decide) (by
      intro c hc; rw [tableStr, List.getLast?_append] at hc; simp at hc; subst hc; decide)
  have e1 : (tableStr l).head? = some '{' := by simp [tableStr]
  have e2 : (tableStr l).getLast? = some '}' := by rw [tableStr, List.getLast?_append]; rfl
  have e3 : inner (tableStr l) = joined ',' (l.map entryStr) := by unfold inner tableStr; simp
  have e4 : split (joined ',' (l.map entryStr)) ',' = l.map entryStr := by
    refine (C29_join ',' _ ?_).1 ?_
    · intro q hq
      obtain ⟨p, hp, rfl⟩ := List.mem_map.1 hq
      have := h p hp
      simp [entryStr]
      exact ⟨this.key_sep.1, this.val_sep.1⟩
    · intro hl
      have := List.mem_of_getLast? hl
      obtain ⟨p, -, hp⟩ := List.mem_map.1 this
      simp [entryStr] at hp
  unfold parseTable
  simp only [e0, e1, e2, e3, e4]
  simpa using tableGo_entries l h []

/-- Hence the table read has exactly the keys written, each with its (last) value. -/
theorem C31_lookup (l : List (Str × Str)) (h : ∀ p ∈ l, Writable p) (hn : (l.map (·.1)).Nodup) :
    ∃ tab, parseTable (tableStr l) = .ok (some tab) ∧ ∀ k v, tableGet tab k = some v ↔ (k, v) ∈ l := by
  refine ⟨l, C31_roundtrip l h, fun k v => ?_⟩
  unfold tableGet
  constructor
  · intro hv
    cases hf : l.reverse.find? (fun p => p.1 == k) with
    | none => rw [hf] at hv; cases hv
    | some p =>
      rw [hf] at hv
      simp at hv; subst hv
      have := List.find?_some hf
      simp at this; subst this
      simpa using List.mem_of_find?_eq_some hf
  · intro hm
    cases hf : l.reverse.find? (fun p => p.1 == k) with
    | none =>
      have := List.find?_eq_none.1 hf (k, v) (by simpa using hm)
      simp at this
    | some p =>
      have hk := List.find?_some hf
      have hp : p ∈ l := by simpa using List.mem_of_find?_eq_some hf
      simp at hk
      have : p = (k, v) := by
        clear hf
        induction l with
        | nil => cases hm
        | cons a t ih =>
          simp only [List.map_cons, List.nodup_cons] at hn
          rcases List.mem_cons.1 hm with e | hm'
          · rcases List.mem_cons.1 hp with e' | hp'
            · rw [e', e]
            · exfalso; apply hn.1; rw [← e]; simp; exact ⟨p.2, by rw [← hk]; exact hp'⟩
          · rcases List.mem_cons.1 hp with e' | hp'
            · exfalso; apply hn.1; rw [← e', hk]; simp; exact ⟨v, hm'⟩
            · exact ih (fun q hq => h q (List.mem_cons_of_mem _ hq)) hn.2 hm' hp'
      simp [this]

/-- Where the code rejects: no braces, or an entry that is not two pieces around `=`, or a value
that does not begin and end with the same kind of quote. -/
theorem C31_reject_braces (s : Str) (c : Char) (hs : (strip s).head? = some c) (hc : c ≠ '{' ∨ (strip s).getLast? ≠ some '}') :
    parseTable s = .ok none := by
  unfold parseTable
  cases hl : (strip s).getLast? with
  | none =>
    rw [List.getLast?_eq_none_iff] at hl
    rw [hl] at hs; cases hs
  | some b =>
    simp only [hs, hl]
    rw [hl] at hc
    rw [if_pos]
    rcases hc with h | h
    · exact .inl h
    · exact .inr (fun h' => h (by rw [h']))

theorem tableGo_reject (pre : List (Str × Str)) (h : ∀ p ∈ pre, Writable p) (bad : Str) (rest : List Str)
    (hb : numPieces '=' bad ≠ 2) : ∀ tab, tableGo (pre.map entryStr ++ bad :: rest) tab = .ok none := by
  induction pre with
  | nil =>
    intro tab
    have : parseList bad '=' 2 2 = none := by
      have := (C30_parse_list bad '=' 2 2).1
      cases hp : parseList bad '=' 2 2 with
      | none => rfl
      | some r => rw [hp] at this; simp at this; omega
    simp only [List.map_nil, List.nil_append, tableGo, this]
  | cons p t ih =>
    intro tab
    have hp := h p (by simp)
    have h1 := strip_self hp.key_ne hp.key_left hp.key_right
    have h2 : strip ('\'' :: p.2 ++ ['\'']) = '\'' :: p.2 ++ ['\''] :=
      strip_self (by simp) (by intro c hc; simp at hc; subst hc; decide) (by
        intro c hc; rw [List.getLast?_append] at hc; simp at hc; subst hc; decide)
    have h3 : quoted ('\'' :: p.2 ++ ['\'']) = .ok true := by
      unfold quoted; rw [List.getLast?_append]; simp
    have h5 := entry_parse hp
    simp only [List.cons_append] at h2 h3 h5
    simp only [List.map_cons, List.cons_append, tableGo, h5, h1, h2, h3, Res.bind_ok, if_true]
    exact ih (fun q hq => h q (List.mem_cons_of_mem _ hq)) _

/-- An entry without exactly one `=` that has something after it is rejected, wherever it stands. -/
theorem C31_reject_entry (pre : List (Str × Str)) (h : ∀ p ∈ pre, Writable p) (bad : Str) (rest : List Str)
    (hb : numPieces '=' bad ≠ 2) (hc : ',' ∉ bad) (hr : ∀ q ∈ rest, ',' ∉ q)
    (hlast : (bad :: rest).getLast? ≠ some []) :
    parseTable ('{' :: joined ',' (pre.map entryStr ++ bad :: rest) ++ ['}']) = .ok none := by
  generalize hL : joined ',' (pre.map entryStr ++ bad :: rest) = L
  have e0 : strip ('{' :: L ++ ['}']) = '{' :: L ++ ['}'] :=
    strip_self (by simp) (by intro c hc; simp at hc; subst hc; decide) (by
      intro c hc; rw [List.getLast?_append] at hc; simp at hc; subst hc; decide)
  have e1 : ('{' :: L ++ ['}']).head? = some '{' := by simp
  have e2 : ('{' :: L ++ ['}']).getLast? = some '}' := by rw [List.getLast?_append]; rfl
  have e3 : inner ('{' :: L ++ ['}']) = L := by unfold inner; simp
  have e4 : split L ',' = pre.map entryStr ++ bad :: rest := by
    rw [← hL]
    refine (C29_join ',' _ ?_).1 ?_
    · intro q hq
      rcases List.mem_append.1 hq with hq | hq
      · obtain ⟨p, hp, rfl⟩ := List.mem_map.1 hq
        have := h p hp
        simp [entryStr]
        exact ⟨this.key_sep.1, this.val_sep.1⟩
      · rcases List.mem_cons.1 hq with rfl | hq
        · exact hc
        · exact hr q hq
    · rw [List.getLast?_append]
      cases hg : (bad :: rest).getLast? with
      | none => simp at hg
      | some x => rw [hg] at hlast; simpa using hlast
  unfold parseTable
  simp only [e0, e1, e2, e3, e4]
  simpa using tableGo_reject pre h bad rest hb []

/-- How an accepted entry reads: two pieces around `=`; the key is the first without its outer
blanks, the second is the value in single or double quotes, or (see `C31_fails_lone_quote`) one
lone quote. -/
structure EntryOf (piece : Str) (kv : Str × Str) : Prop where
  two : ∃ k v, split piece '=' = [k, v] ∧ Trimmed k kv.1 ∧
    ∃ q, (q = '\'' ∨ q = '"') ∧ (Trimmed v (q :: kv.2 ++ [q]) ∨ Trimmed v [q] ∧ kv.2 = [])

theorem strip_strip (s : Str) : strip (strip s) = strip s := by
  by_cases h : strip s = []
  · rw [h]; rfl
  · exact strip_self h (strip_trimmed s).left (strip_trimmed s).right

theorem quoted_inner {v : Str} (h : quoted v = .ok true) :
    ∃ q, (q = '\'' ∨ q = '"') ∧ (v = q :: inner v ++ [q] ∨ v = [q] ∧ inner v = []) := by
  unfold quoted at h
  cases v with
  | nil => simp at h
  | cons a t =>
    cases hl : (a :: t).getLast? with
    | none => simp at hl
    | some b =>
      simp only [List.head?_cons, hl, Res.ok.injEq, Bool.or_eq_true, Bool.and_eq_true, beq_iff_eq] at h
      have hab : a = b ∧ (a = '\'' ∨ a = '"') := by
        rcases h with ⟨h1, h2⟩ | ⟨h1, h2⟩
        · exact ⟨by rw [h1, h2], .inl h1⟩
        · exact ⟨by rw [h1, h2], .inr h1⟩
      refine ⟨a, hab.2, ?_⟩
      obtain ⟨rfl, -⟩ := hab
      cases t with
      | nil => exact .inr ⟨rfl, by simp [inner]⟩
      | cons c t =>
        left
        rw [List.getLast?_cons_cons] at hl
        have e : (c :: t).dropLast ++ [a] = c :: t := by
          obtain ⟨ys, hys⟩ := List.getLast?_eq_some_iff.1 hl
          rw [hys, List.dropLast_concat]
        have : inner (a :: c :: t) = (c :: t).dropLast := by
          unfold inner
          simp [List.dropLast_eq_take]
          intro h; omega
        rw [this, List.cons_append, e]

theorem tableGo_sound (l : List Str) : ∀ tab tab', tableGo l tab = .ok (some tab') →
    ∃ new, tab' = tab ++ new ∧ new.length = l.length ∧
      ∀ (i : Nat) (p : Str), l[i]? = some p → ∃ kv, new[i]? = some kv ∧ EntryOf p kv := by
  induction l with
  | nil =>
    intro tab tab' h
    simp only [tableGo, Res.ok.injEq, Option.some.injEq] at h
    exact ⟨[], by simp [h], rfl, by simp⟩
  | cons it rest ih =>
    intro tab tab' h
    simp only [tableGo] at h
    split at h
    · next k v hp =>
      have hs : ∃ k0 v0, split it '=' = [k0, v0] ∧ k = strip k0 ∧ v = strip v0 := by
        unfold parseList at hp
        dsimp only at hp
        split at hp
        · cases hp
        · cases hsp : split it '=' with
          | nil => rw [hsp] at hp; simp at hp
          | cons a t =>
            cases t with
            | nil => rw [hsp] at hp; simp at hp
            | cons b t =>
              cases t with
              | nil => rw [hsp] at hp; simp at hp; exact ⟨a, b, rfl, hp.1.symm, hp.2.symm⟩
              | cons _ _ => rw [hsp] at hp; simp at hp
      obtain ⟨k0, v0, hs, rfl, rfl⟩ := hs
      rw [strip_strip, strip_strip] at h
      cases hq : quoted (strip v0) with
      | ok b =>
        rw [hq] at h
        simp only [Res.bind_ok] at h
        cases b with
        | false => simp at h
        | true =>
          simp only [if_true] at h
          obtain ⟨new, rfl, hlen, hall⟩ := ih _ _ h
          refine ⟨(strip k0, inner (strip v0)) :: new, by simp, by simp [hlen], ?_⟩
          intro i p hi
          cases i with
          | zero =>
            simp only [List.getElem?_cons_zero, Option.some.injEq] at hi
            subst hi
            refine ⟨_, rfl, ⟨k0, v0, hs, strip_trimmed k0, ?_⟩⟩
            obtain ⟨q, hq1, hq2⟩ := quoted_inner hq
            refine ⟨q, hq1, ?_⟩
            rcases hq2 with e | ⟨e1, e2⟩
            · left; dsimp only; rw [← e]; exact strip_trimmed v0
            · right; exact ⟨by rw [← e1]; exact strip_trimmed v0, e2⟩
          | succ i =>
            simp only [List.getElem?_cons_succ] at hi ⊢
            exact hall i p hi
      | _ => rw [hq] at h; simp at h
    · cases h

/-- A table is accepted only if it is written in braces and each of its comma separated pieces reads
as an entry; the table then has these entries, in order, and no other. -/
theorem C31_sound (s : Str) (tab : List (Str × Str)) (h : parseTable s = .ok (some tab)) :
    (strip s).head? = some '{' ∧ (strip s).getLast? = some '}' ∧
    tab.length = numPieces ',' (inner (strip s)) ∧
    ∀ (i : Nat) (p : Str), (split (inner (strip s)) ',')[i]? = some p → ∃ kv, tab[i]? = some kv ∧ EntryOf p kv := by
  unfold parseTable at h
  dsimp only at h
  split at h
  · next a b ha hb =>
    split at h
    · cases h
    · next hab =>
      have hab : a = '{' ∧ b = '}' := ⟨Decidable.byContradiction fun h => hab (.inl h), Decidable.byContradiction fun h => hab (.inr h)⟩
      obtain ⟨new, rfl, hlen, hall⟩ := tableGo_sound _ _ _ h
      refine ⟨by rw [ha, hab.1], by rw [hb, hab.2], ?_, ?_⟩
      · rw [hlen]
        unfold split numPieces
        rw [splitGo_length]; simp
      · exact hall
  · cases h

example : Writable ("horzRepeat".toList, "1".toList) := by constructor <;> decide
example : parseTable "{a='1', b = \"x y\"}".toList = .ok (some [("a".toList, "1".toList), ("b".toList, "x y".toList)]) := by
  decide +kernel
example : parseTable "{a='1',b}".toList = .ok none := by decide +kernel

/-- But not every malformed table is rejected: a value consisting of one quote is read as the empty
value. -/
theorem C31_fails_lone_quote : parseTable "{a='}".toList = .ok (some [("a".toList, [])]) := by decide +kernel

/-- And the empty string, or an entry whose value is blank, makes the code look at the first
character of an empty string. -/
theorem C31_fails_empty : parseTable [] = .ub ∧ parseTable "{a= }".toList = .ub := by decide +kernel

end Ginga
