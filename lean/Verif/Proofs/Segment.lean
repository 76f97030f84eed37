import Verif.Proofs.LinkK
/-!
# The elements inside an element
-/
namespace Ginga

/-- The elements in an element come right after it, and no other element has its parent among them. -/
theorem Laid.segment {E : PRead} {al : List (String × String)} {pt : Option String} {par : Option Nat} {k : Nat} {xs : List Xml} {l : List Note}
    (h : Laid E al pt par k xs l) : (∀ p, par = some p → p < k) → ∀ (i : Nat) (m : Note), l[i]? = some m → m.tag ≠ "importBase" →
    ∃ (al' : List (String × String)) (a l1 b : List Note), l = a ++ m :: (l1 ++ b) ∧ a.length = i ∧ Laid E al' (some m.tag) (some (k + i)) (k + i + 1) m.xml.children l1 ∧
      ∀ n ∈ b, ∀ p, n.parent = some p → p < k + i ∨ k + i + l1.length < p := by
  induction h with
  | nil => intro _ i m hm; simp at hm
  | @cons al pt par k x xs n l1 l2 h1 h2 h3 h4 h5 h6 ih1 ih2 =>
    intro hpar i m hm hi
    cases i with
    | zero =>
      obtain rfl : n = m := by simpa using hm
      refine ⟨al, [], l1, l2, rfl, rfl, ?_, fun q hq p hp => ?_⟩
      · rw [h2]; unfold Note.tag; rw [h2]; exact h5
      · rcases h6.parent_range q hq with h | h | ⟨p', h, ha, hb⟩
        · rw [hp] at h; have := hpar p h.symm; omega
        · rw [hp] at h; cases h
        · rw [hp] at h; obtain rfl : p = p' := by simpa using h
          omega
    | succ i =>
      rw [List.getElem?_cons_succ] at hm
      by_cases hlt : i < l1.length
      · rw [List.getElem?_append_left hlt] at hm
        obtain ⟨al', a, l1', b, e1, e2, e3, e4⟩ := ih1 (by simp) i m hm hi
        refine ⟨al', n :: a, l1', b ++ l2, by rw [e1]; simp, by simp [e2], ?_, fun q hq p hp => ?_⟩
        · rw [show k + (i + 1) = k + 1 + i by omega]; exact e3
        · have hlen : l1.length = a.length + (l1'.length + b.length + 1) := by rw [e1]; simp
          rcases List.mem_append.1 hq with hq | hq
          · have := e4 q hq p hp; omega
          · rcases h6.parent_range q hq with h | h | ⟨p', h, ha, hb⟩
            · rw [hp] at h; have := hpar p h.symm; omega
            · rw [hp] at h; cases h
            · rw [hp] at h; obtain rfl : p = p' := by simpa using h
              omega
      · rw [List.getElem?_append_right (by omega)] at hm
        obtain ⟨al', a, l1', b, e1, e2, e3, e4⟩ := ih2 (fun p hp => by have := hpar p hp; omega) _ m hm hi
        refine ⟨al', n :: (l1 ++ a), l1', b, by rw [e1]; simp, by simp [e2]; omega, ?_, fun q hq p hp => ?_⟩
        · rw [show k + (i + 1) = k + 1 + l1.length + (i - l1.length) by omega]; exact e3
        · have := e4 q hq p hp; omega
  | @imp al tag par k x xs a d u root head n l1 l2 l3 h1 h2 h3 h4 h5 h6 h7 h8 h9 h10 h11 h12 h13 ih1 ih2 ih3 =>
    intro hpar i m hm hi
    cases i with
    | zero =>
      obtain rfl : n = m := by simpa using hm
      exact absurd (by unfold Note.tag; rw [h2]; exact h1) hi
    | succ i =>
      rw [List.getElem?_cons_succ] at hm
      have later : ∀ {ys : List Xml} {al : List (String × String)} {pt : Option String} {par' : Option Nat} {j : Nat} {l : List Note}, Laid E al pt par' j ys l →
          (∀ p, par' = some p → p ≤ k) → ∀ (lo hi : Nat), k < lo → hi < j → ∀ q ∈ l, ∀ p, q.parent = some p → p < lo ∨ hi < p := by
        intro ys al pt par' j l hl hp' lo hi h1 h2 q hq p hp
        rcases hl.parent_range q hq with h | h | ⟨p', h, ha, hb⟩
        · rw [hp] at h; have := hp' p h.symm; omega
        · rw [hp] at h; cases h
        · rw [hp] at h; obtain rfl : p = p' := by simpa using h
          omega
      by_cases hlt : i < l1.length
      · rw [List.append_assoc, List.getElem?_append_left hlt] at hm
        obtain ⟨al', a, l1', b, e1, e2, e3, e4⟩ := ih1 (by simp) i m hm hi
        have hlen : l1.length = a.length + (l1'.length + b.length + 1) := by rw [e1]; simp
        refine ⟨al', n :: a, l1', b ++ (l2 ++ l3), by rw [e1]; simp, by simp [e2], ?_, fun q hq p hp => ?_⟩
        · rw [show k + (i + 1) = k + 1 + i by omega]; exact e3
        · rcases List.mem_append.1 hq with hq | hq
          · have := e4 q hq p hp; omega
          rcases List.mem_append.1 hq with hq | hq
          · exact later h12 (by simp) _ _ (by omega) (by omega) q hq p hp
          · exact later h13 (fun p hp => Nat.le_of_lt (hpar p hp)) _ _ (by omega) (by omega) q hq p hp
      · by_cases hlt2 : i < l1.length + l2.length
        · rw [List.append_assoc, List.getElem?_append_right (by omega), List.getElem?_append_left (by omega)] at hm
          obtain ⟨al', a, l1', b, e1, e2, e3, e4⟩ := ih2 (by simp; omega) _ m hm hi
          have hlen : l2.length = a.length + (l1'.length + b.length + 1) := by rw [e1]; simp
          refine ⟨al', n :: (l1 ++ a), l1', b ++ l3, by rw [e1]; simp, by simp [e2]; omega, ?_, fun q hq p hp => ?_⟩
          · rw [show k + (i + 1) = k + 1 + l1.length + (i - l1.length) by omega]; exact e3
          · rcases List.mem_append.1 hq with hq | hq
            · have := e4 q hq p hp; omega
            · exact later h13 (fun p hp => Nat.le_of_lt (hpar p hp)) _ _ (by omega) (by omega) q hq p hp
        · rw [List.getElem?_append_right (by simp; omega), List.length_append] at hm
          obtain ⟨al', a, l1', b, e1, e2, e3, e4⟩ := ih3 (fun p hp => by have := hpar p hp; omega) _ m hm hi
          refine ⟨al', n :: (l1 ++ l2 ++ a), l1', b, by rw [e1]; simp, by simp [e2]; omega, ?_, fun q hq p hp => ?_⟩
          · rw [show k + (i + 1) = k + 1 + l1.length + l2.length + (i - (l1.length + l2.length)) by omega]; exact e3
          · have := e4 q hq p hp; omega

/-- The roles and the tests of a connector, in what a list of elements adds to it. -/
theorem effAll_conn (j : Nat) : ∀ (i : Nat) (l : List Note) (e : Elt),
    (effAll j i l e).roles = e.roles ++ (l.filter fun n => n.conn == some j).flatMap (fun n => roleEff n.push n.tag n.get n.parent) ∧
    (effAll j i l e).tests = addTests e.tests ((l.filter fun n => n.conn == some j).flatMap fun n => testEff n.push n.tag n.get)
  | _, [], e => by simp [effAll, addTests]
  | i, n :: l, e => by
    obtain ⟨h1, h2⟩ := effAll_conn j (i + 1) l (n.eff i j e)
    have hc : ∀ f k tag a (e : Elt), (childEff f k tag a e).roles = e.roles ∧ (childEff f k tag a e).tests = e.tests := by
      intro f k tag a e
      cases f <;> simp only [childEff, and_self]
      split
      · simp
      · split <;> simp
    have he : (n.eff i j e).roles = (if n.conn = some j then connApply (roleEff n.push n.tag n.get n.parent) (testEff n.push n.tag n.get) e else e).roles ∧
        (n.eff i j e).tests = (if n.conn = some j then connApply (roleEff n.push n.tag n.get n.parent) (testEff n.push n.tag n.get) e else e).tests := by
      unfold Note.eff
      split
      · exact hc _ _ _ _ _
      · exact ⟨rfl, rfl⟩
    rw [effAll, h1, h2, he.1, he.2]
    by_cases hn : n.conn = some j
    · rw [if_pos hn, List.filter_cons_of_pos (by simp [hn]), List.flatMap_cons, List.flatMap_cons]
      simp [connApply, addTests, List.foldl_append]
    · rw [if_neg hn, List.filter_cons_of_neg (by simp [hn])]
      exact ⟨rfl, rfl⟩

theorem addTests_mem {a : String} : ∀ {l ts : List String}, a ∈ addTests ts l ↔ a ∈ ts ∨ a ∈ l
  | [], ts => by simp [addTests]
  | b :: l, ts => by
    have := addTests_mem (a := a) (l := l) (ts := if b ∈ ts then ts else ts ++ [b])
    show a ∈ addTests (if b ∈ ts then ts else ts ++ [b]) l ↔ _
    rw [this]
    split
    · next h =>
      constructor
      · rintro (h | h)
        · exact .inl h
        · exact .inr (by simp [h])
      · rintro (h' | h')
        · exact .inl h'
        · rcases List.mem_cons.1 h' with rfl | h'
          · exact .inl h
          · exact .inr h'
    · simp [or_assoc]

/-- The elements of a connector are those in it. -/
theorem conn_filter {E : PRead} {scr : Rect} {a l1 b : List Note} {m : Note} {ck : Nat} (hok : ∀ (j : Nat) nt, (a ++ m :: (l1 ++ b))[j]? = some nt → NoteOk E scr (a ++ m :: (l1 ++ b)) j nt)
    (ha : a.length = ck) (hin : ∀ n ∈ l1, n.conn = some ck) (hb : ∀ n ∈ b, ∀ p, n.parent = some p → p < ck ∨ ck + l1.length < p) :
    (a ++ m :: (l1 ++ b)).filter (fun n => n.conn == some ck) = l1 := by
  have hlt : ∀ (j : Nat) n, (a ++ m :: (l1 ++ b))[j]? = some n → n.conn = some ck → ck < j ∧ j ≤ ck + l1.length := by
    intro j
    induction j using Nat.strongRecOn with
    | ind j ih =>
      intro n hj hc
      have hokn := hok j n hj
      have h1 := hokn.connLt ck hc
      refine ⟨h1, Decidable.byContradiction fun hgt => ?_⟩
      have hnb : n ∈ b := by
        rw [List.getElem?_append_right (by omega), show j - a.length = (j - a.length - 1) + 1 by omega, List.getElem?_cons_succ,
          List.getElem?_append_right (by omega)] at hj
        exact List.mem_of_getElem? hj
      rw [hokn.conn] at hc
      cases hp : n.parent with
      | none => rw [hp] at hc; simp [connFor] at hc
      | some p =>
        rw [hp] at hc
        obtain ⟨hpj, m', hm', -⟩ := hokn.parent p hp
        simp only [connFor, hm'] at hc
        have hout := hb n hnb p hp
        split at hc
        · have : p = ck := by simpa using hc
          omega
        · have := ih p hpj m' hm' hc
          omega
  have hfa : a.filter (fun n => n.conn == some ck) = [] := by
    rw [List.filter_eq_nil_iff]
    intro n hn hc
    obtain ⟨i, hi⟩ := List.getElem?_of_mem hn
    have := getElem?_lt hi
    have := hlt i n (by rw [List.getElem?_append_left this]; exact hi) (by simpa using hc)
    omega
  have hfb : b.filter (fun n => n.conn == some ck) = [] := by
    rw [List.filter_eq_nil_iff]
    intro n hn hc
    obtain ⟨i, hi⟩ := List.getElem?_of_mem hn
    have := hlt (ck + 1 + l1.length + i) n (by
      rw [List.getElem?_append_right (by omega), show ck + 1 + l1.length + i - a.length = (l1.length + i) + 1 by omega, List.getElem?_cons_succ,
        List.getElem?_append_right (by omega)]
      simpa using hi) (by simpa using hc)
    omega
  have hfm : (m.conn == some ck) = false := by
    cases h : m.conn == some ck with
    | false => rfl
    | true =>
      have := hlt ck m (by rw [List.getElem?_append_right (by omega)]; simp [ha]) (by simpa using h)
      omega
  have hfl : l1.filter (fun n => n.conn == some ck) = l1 := List.filter_eq_self.2 fun n hn => by simp [hin n hn]
  rw [List.filter_append, hfa, List.filter_cons_of_neg (by simp [hfm]), List.filter_append, hfl, hfb]
  simp

/-- The roles and tests of a connector are those of its XML element. -/
theorem conn_roles {E : PRead} {scr : Rect} {z : Nat} {x : Xml} {t u : PS} {ns : List Note} {f : Nat → Nat} (hd : DocTree E scr x t ns f) (hj : J E scr z ns u)
    (hk : LinkK f ns u) {ck : Nat} {m : Note} (hm : ns[ck]? = some m) (ht : m.tag = "causalConnector") :
    Each (RoleFrom ns) (rolesInAll [] m.xml.children) (u.elt ck).roles ∧ ∀ r, r ∈ (u.elt ck).tests ↔ r ∈ testsInAll m.xml.children := by
  obtain ⟨al, a, l1, b, e1, e2, e3, e4⟩ := hd.laid.segment (by simp) ck m hm (by rw [ht]; decide)
  rw [Nat.zero_add] at e3 e4
  obtain ⟨c1, c2, c3⟩ := laid_roles (ck := ck) hd.ok hk.role e3 (fun i n hi => by
    rw [e1, List.getElem?_append_right (by omega), show ck + 1 + i - a.length = i + 1 by omega, List.getElem?_cons_succ,
      List.getElem?_append_left (getElem?_lt hi)]; exact hi) ck m [] rfl hm (.inl ⟨ht, rfl⟩) (.top hm ht)
  have hf : ns.filter (fun n => n.conn == some ck) = l1 := by
    have hok := hd.ok
    rw [e1] at hok ⊢
    exact conn_filter hok e2 c1 e4
  have he := hj.elt ck m hm
  obtain ⟨r1, r2⟩ := effAll_conn ck 0 ns m.base
  rw [hf] at r1 r2
  have h1 : (u.elt ck).roles = (effAll ck 0 ns m.base).roles := (congrArg Elt.roles he : (eraseE (u.elt ck)).roles = _)
  have h2 : (u.elt ck).tests = (effAll ck 0 ns m.base).tests := (congrArg Elt.tests he : (eraseE (u.elt ck)).tests = _)
  rw [h1, h2, r1, r2, c3]
  refine ⟨by simpa [Note.base] using c2, fun r => ?_⟩
  rw [addTests_mem]
  simp [Note.base]

end Ginga
