import Verif.Model.Text
/-! # Reading numbers -/
set_option linter.unusedSimpArgs false
namespace Ginga

/-! ## Specification of numerals -/

/-- An optional sign: `some true` is a minus. -/
def sgnStr : Option Bool → Str
  | none => []
  | some true => ['-']
  | some false => ['+']

/-- A decimal numeral as C accepts it: blanks, sign, integer digits, `.`, fraction digits, exponent. -/
structure Numeral where
  lead : Str := []
  neg : Option Bool := none
  ip : Str
  dot : Bool := false
  fp : Str := []
  ex : Option (Char × Option Bool × Str) := none

/-- The text of a numeral. -/
def Numeral.str (n : Numeral) : Str :=
  n.lead ++ (sgnStr n.neg ++ (n.ip ++ ((if n.dot then '.' :: n.fp else []) ++
    (match n.ex with | none => [] | some (c, sg, ds) => c :: (sgnStr sg ++ ds)))))

/-- The exponent. -/
def Numeral.expv (n : Numeral) : Int :=
  match n.ex with
  | none => 0
  | some (_, sg, ds) => if sg = some true then -(Nat.ofDigitChars 10 ds 0 : Int) else Nat.ofDigitChars 10 ds 0

/-- The number a numeral denotes. -/
def Numeral.val (n : Numeral) : Rat :=
  let v := (Nat.ofDigitChars 10 (n.ip ++ n.fp) 0 : Rat) * 10 ^ (n.expv - (n.fp.length : Int))
  if n.neg = some true then -v else v

structure Numeral.WF (n : Numeral) : Prop where
  lead : ∀ c ∈ n.lead, cspace c = true
  ip : ∀ c ∈ n.ip, isDigit c = true
  fp : ∀ c ∈ n.fp, isDigit c = true
  nonempty : n.ip ≠ [] ∨ n.fp ≠ []
  dot : n.dot = false → n.fp = []
  ex : ∀ c sg ds, n.ex = some (c, sg, ds) → (c = 'e' ∨ c = 'E') ∧ ds ≠ [] ∧ ∀ c ∈ ds, isDigit c = true

/-- A text after which no numeral can be continued. -/
def Stops (rest : Str) : Prop :=
  ∀ c, rest.head? = some c → isDigit c = false ∧ c ≠ '.' ∧ c ≠ 'e' ∧ c ≠ 'E'

/-- A number as the time syntax has it: a numeral, or nothing (read as zero). -/
def Num (a : Str) (x : Rat) : Prop := a = [] ∧ x = 0 ∨ ∃ n : Numeral, n.WF ∧ a = n.str ∧ x = n.val

/-! ## Lemmas -/

theorem digitsVal_eq (l : Str) : ∀ acc, digitsVal acc l = Nat.ofDigitChars 10 l acc := by
  intro acc
  rw [Nat.ofDigitChars_eq_foldl, digitsVal]
  congr 1
  funext a c
  rw [Nat.mul_comm]; rfl

theorem takeWhile_append_stop (p : Char → Bool) (a b : Str) (ha : ∀ c ∈ a, p c = true)
    (hb : ∀ c, b.head? = some c → p c = false) : (a ++ b).takeWhile p = a ∧ (a ++ b).dropWhile p = b := by
  induction a with
  | nil =>
    cases b with
    | nil => simp
    | cons c t =>
      have := hb c rfl
      simp [this]
  | cons x a ih =>
    have h := ih (fun c hc => ha c (List.mem_cons_of_mem _ hc))
    have hx := ha x (by simp)
    simp [hx, h.1, h.2]

theorem takeWhile_spec (p : Char → Bool) (s : Str) :
    s = s.takeWhile p ++ s.dropWhile p ∧ (∀ c ∈ s.takeWhile p, p c = true) ∧
    ∀ c, (s.dropWhile p).head? = some c → p c = false := by
  refine ⟨(List.takeWhile_append_dropWhile).symm, ?_, ?_⟩
  · induction s with
    | nil => simp
    | cons x t ih =>
      rw [List.takeWhile_cons]
      split
      · intro c hc
        rcases List.mem_cons.1 hc with h | h
        · subst h; assumption
        · exact ih c h
      · simp
  · intro c h
    induction s with
    | nil => simp at h
    | cons x t ih =>
      rw [List.dropWhile_cons] at h
      split at h
      · exact ih h
      · next hx => simp at h; subst h; simpa using hx

theorem digit_facts {c : Char} (h : isDigit c = true) :
    cspace c = false ∧ c ≠ '-' ∧ c ≠ '+' ∧ c ≠ '.' ∧ c ≠ 'e' ∧ c ≠ 'E' := by
  refine ⟨?_, ?_, ?_, ?_, ?_, ?_⟩
  · unfold isDigit at h
    unfold cspace blank
    simp only [Bool.and_eq_true, decide_eq_true_eq] at h
    have : c.toNat ≥ 48 := h.1
    simp only [Bool.or_eq_false_iff, beq_eq_false_iff_ne, ne_eq]
    refine ⟨⟨⟨⟨⟨?_, ?_⟩, ?_⟩, ?_⟩, ?_⟩, ?_⟩ <;> (intro hc; subst hc; revert this; decide)
  all_goals (intro hc; subst hc; revert h; decide)

theorem sign_append (sg : Option Bool) (s : Str) (h : ∀ c, s.head? = some c → c ≠ '-' ∧ c ≠ '+') :
    sign (sgnStr sg ++ s) = (decide (sg = some true), s) := by
  cases sg with
  | none =>
    simp only [sgnStr, List.nil_append]
    unfold sign
    split
    · exact absurd rfl (h _ rfl).1
    · exact absurd rfl (h _ rfl).2
    · rfl
  | some b => cases b <;> rfl

theorem sign_spec (s : Str) : ∃ sg : Option Bool, s = sgnStr sg ++ (sign s).2 ∧ (sign s).1 = decide (sg = some true) := by
  unfold sign
  split
  · exact ⟨some true, rfl, rfl⟩
  · exact ⟨some false, rfl, rfl⟩
  · exact ⟨none, rfl, rfl⟩

theorem expo_none {s : Str} (h : ∀ c, s.head? = some c → c ≠ 'e' ∧ c ≠ 'E') : expo s = (0, s) := by
  unfold expo
  cases s with
  | nil => rfl
  | cons c t =>
    have := h c rfl
    simp [this.1, this.2]

theorem expo_some {c : Char} {sg : Option Bool} {ds rest : Str} (hc : c = 'e' ∨ c = 'E') (hds : ds ≠ [])
    (hd : ∀ c ∈ ds, isDigit c = true) (hr : ∀ c, rest.head? = some c → isDigit c = false) :
    expo (c :: (sgnStr sg ++ (ds ++ rest))) =
      ((if sg = some true then -(Nat.ofDigitChars 10 ds 0 : Int) else Nat.ofDigitChars 10 ds 0), rest) := by
  have h1 : ∀ x, (ds ++ rest).head? = some x → x ≠ '-' ∧ x ≠ '+' := by
    intro x hx
    cases ds with
    | nil => exact absurd rfl hds
    | cons y t =>
      simp at hx; subst hx
      have := digit_facts (hd y (by simp))
      exact ⟨this.2.1, this.2.2.1⟩
  have h2 := takeWhile_append_stop isDigit ds rest hd hr
  unfold expo
  simp only [sign_append sg _ h1, h2.1, h2.2, if_pos hc, if_neg hds, digitsVal_eq]
  by_cases hs : sg = some true <;> simp [hs]

/-- Reading a numeral followed by something that does not continue it. -/
theorem strtod_numeral (n : Numeral) (hn : n.WF) (rest : Str) (hr : Stops rest) :
    strtod (n.str ++ rest) = some (n.val, rest) := by
  have hdig : ∀ c, rest.head? = some c → isDigit c = false := fun c h => (hr c h).1
  -- the exponent part
  generalize hE : (match n.ex with | none => ([] : Str) | some (c, sg, ds) => c :: (sgnStr sg ++ ds)) = E
  have hexp : expo (E ++ rest) = (n.expv, rest) := by
    subst hE
    unfold Numeral.expv
    cases hx : n.ex with
    | none => exact expo_none (fun c h => (hr c h).2.2)
    | some p =>
      obtain ⟨c, sg, ds⟩ := p
      obtain ⟨h1, h2, h3⟩ := hn.ex c sg ds hx
      have := expo_some (sg := sg) (rest := rest) h1 h2 h3 hdig
      simpa using this
  have hEhead : ∀ c, (E ++ rest).head? = some c → isDigit c = false ∧ c ≠ '.' ∧ c ≠ '-' ∨ (isDigit c = false ∧ c ≠ '.') := by
    intro c hc
    right
    subst hE
    cases hx : n.ex with
    | none => rw [hx] at hc; exact ⟨(hr c hc).1, (hr c hc).2.1⟩
    | some p =>
      obtain ⟨c', sg, ds⟩ := p
      rw [hx] at hc
      simp at hc; subst hc
      rcases (hn.ex c' sg ds hx).1 with h | h <;> subst h <;> decide
  have hEdig : ∀ c, (E ++ rest).head? = some c → isDigit c = false := fun c hc => by
    rcases hEhead c hc with h | h <;> exact h.1
  have hEdot : ∀ c, (E ++ rest).head? = some c → c ≠ '.' := fun c hc => by
    rcases hEhead c hc with h | h
    · exact h.2.1
    · exact h.2
  generalize hF : (if n.dot then '.' :: n.fp else []) = Fr
  have hstr : n.str ++ rest = n.lead ++ (sgnStr n.neg ++ (n.ip ++ (Fr ++ (E ++ rest)))) := by
    unfold Numeral.str; rw [hE, hF]; simp
  have hip : ∀ c, (Fr ++ (E ++ rest)).head? = some c → isDigit c = false := by
    intro c hc
    subst hF
    cases hd : n.dot with
    | true => rw [hd] at hc; simp at hc; subst hc; decide
    | false => rw [hd] at hc; exact hEdig c hc
  have hbody : ∀ c, (n.ip ++ (Fr ++ (E ++ rest))).head? = some c → cspace c = false ∧ c ≠ '-' ∧ c ≠ '+' := by
    intro c hc
    cases hi : n.ip with
    | cons x t =>
      rw [hi] at hc; simp at hc; subst hc
      have := digit_facts (hn.ip x (by rw [hi]; simp))
      exact ⟨this.1, this.2.1, this.2.2.1⟩
    | nil =>
      have hfp : n.fp ≠ [] := by rcases hn.nonempty with h | h; exact absurd hi h; exact h
      have hdot : n.dot = true := by
        cases hd : n.dot with
        | true => rfl
        | false => exact absurd (hn.dot hd) hfp
      rw [hi] at hc
      subst hF
      rw [hdot] at hc; simp at hc; subst hc; decide
  have hsgn : ∀ c, (sgnStr n.neg ++ (n.ip ++ (Fr ++ (E ++ rest)))).head? = some c → cspace c = false := by
    intro c hc
    cases hneg : n.neg with
    | none => rw [hneg] at hc; exact (hbody c hc).1
    | some b => rw [hneg] at hc; cases b <;> (simp [sgnStr] at hc; subst hc; decide)
  have e1 := (takeWhile_append_stop cspace n.lead _ hn.lead hsgn).2
  have e2 := sign_append n.neg (n.ip ++ (Fr ++ (E ++ rest))) (fun c hc => (hbody c hc).2)
  have e3 := takeWhile_append_stop isDigit n.ip _ hn.ip hip
  unfold strtod
  rw [hstr]
  simp only [e1, e2, e3.1, e3.2]
  cases hd : n.dot with
  | true =>
    have hFe : Fr = '.' :: n.fp := by rw [← hF, hd]; rfl
    have e4 := takeWhile_append_stop isDigit n.fp _ hn.fp hEdig
    simp only [hFe, List.cons_append, fraction, e4.1, e4.2, hexp]
    rw [if_neg (by intro h; rcases hn.nonempty with h' | h' <;> simp_all)]
    rw [digitsVal_eq]
    unfold Numeral.val
    by_cases hneg : n.neg = some true <;> simp [hneg]
  | false =>
    have hFe : Fr = [] := by rw [← hF, hd]; rfl
    have hfp := hn.dot hd
    have hipne : n.ip ≠ [] := by rcases hn.nonempty with h | h; exact h; exact absurd hfp h
    have hfrac : fraction (E ++ rest) = ([], E ++ rest) := by
      unfold fraction
      split
      · next r' he => exact absurd rfl (hEdot '.' (by rw [he]; rfl))
      · rfl
    simp only [hFe, List.nil_append, hfrac]
    · simp only [hexp]
      rw [if_neg (by simp [hipne])]
      rw [digitsVal_eq]
      unfold Numeral.val
      rw [hfp]
      by_cases hneg : n.neg = some true <;> simp [hneg]

theorem expo_spec (s : Str) : ∃ E : Option (Char × Option Bool × Str),
    s = (match E with | none => [] | some (c, sg, ds) => c :: (sgnStr sg ++ ds)) ++ (expo s).2 ∧
    (∀ c sg ds, E = some (c, sg, ds) → (c = 'e' ∨ c = 'E') ∧ ds ≠ [] ∧ ∀ c ∈ ds, isDigit c = true) ∧
    (expo s).1 = (match E with | none => 0 | some (_, sg, ds) => if sg = some true then -(Nat.ofDigitChars 10 ds 0 : Int) else Nat.ofDigitChars 10 ds 0) := by
  unfold expo
  cases s with
  | nil => exact ⟨none, rfl, by simp, rfl⟩
  | cons c t =>
    dsimp only
    split
    · next hc =>
      obtain ⟨sg, h1, h2⟩ := sign_spec t
      obtain ⟨h3, h4, -⟩ := takeWhile_spec isDigit (sign t).2
      split
      · exact ⟨none, rfl, by simp, rfl⟩
      · next hds =>
        refine ⟨some (c, sg, (sign t).2.takeWhile isDigit), ?_, ?_, ?_⟩
        · dsimp only
          rw [List.cons_append, List.append_assoc, ← h3, ← h1]
        · intro c' sg' ds' he
          simp only [Option.some.injEq, Prod.mk.injEq] at he
          obtain ⟨rfl, rfl, rfl⟩ := he
          exact ⟨hc, hds, h4⟩
        · dsimp only
          rw [h2, digitsVal_eq]
          by_cases hs : sg = some true <;> simp [hs]
    · exact ⟨none, rfl, by simp, rfl⟩

/-- What is read is a numeral, and its value is the number read. -/
theorem strtod_sound (s : Str) (v : Rat) (rest : Str) (h : strtod s = some (v, rest)) :
    ∃ n : Numeral, n.WF ∧ s = n.str ++ rest ∧ v = n.val := by
  unfold strtod at h
  dsimp only at h
  obtain ⟨l1, l2, -⟩ := takeWhile_spec cspace s
  obtain ⟨sg, s1, s2⟩ := sign_spec (s.dropWhile cspace)
  generalize (sign (s.dropWhile cspace)).1 = sb at *
  generalize (sign (s.dropWhile cspace)).2 = body at *
  obtain ⟨d1, d2, -⟩ := takeWhile_spec isDigit body
  generalize body.dropWhile isDigit = r at *
  have hfr : ∃ dot : Bool, ∃ fp r2 : Str, r = (if dot then '.' :: fp else []) ++ r2 ∧ (∀ c ∈ fp, isDigit c = true) ∧
      (dot = false → fp = []) ∧
      fraction r = (fp, r2) := by
    clear d1 h
    unfold fraction
    split
    · next r' =>
      obtain ⟨f1, f2, -⟩ := takeWhile_spec isDigit r'
      exact ⟨true, _, _, by simp [← f1], f2, by simp, rfl⟩
    · exact ⟨false, [], r, by simp, by simp, by simp, rfl⟩
  obtain ⟨dot, fp, r2, hr, hfp, hdot, hm⟩ := hfr
  rw [hm] at h
  dsimp only at h
  split at h
  · cases h
  · next hne =>
    simp only [Option.some.injEq, Prod.mk.injEq] at h
    obtain ⟨hv, hrest⟩ := h
    obtain ⟨E, e1, e2, e3⟩ := expo_spec r2
    refine ⟨⟨s.takeWhile cspace, sg, body.takeWhile isDigit, dot, fp, E⟩, ⟨l2, d2, hfp, ?_, hdot, e2⟩, ?_, ?_⟩
    · dsimp only
      by_cases h0 : body.takeWhile isDigit = []
      · exact .inr (fun h => hne ⟨h0, h⟩)
      · exact .inl h0
    · unfold Numeral.str
      dsimp only
      rw [hrest] at e1
      rw [List.append_assoc, List.append_assoc, List.append_assoc, List.append_assoc, ← e1, ← hr, ← d1, ← s1, ← l1]
    · unfold Numeral.val Numeral.expv
      dsimp only
      rw [← hv, s2, digitsVal_eq, e3]
      by_cases hs : sg = some true <;> simp [hs]

theorem cstrtod_sound (F : FP) (s : Str) : ∃ a x, Num a x ∧ s = a ++ (cstrtod F s).2 ∧
    ((cstrtod F s).1 = F.rnd x) := by
  have h0 : F.rnd 0 = 0 := by
    have := F.exact 0 0 (by decide)
    simpa using this
  unfold cstrtod
  cases h : strtod s with
  | none => exact ⟨[], 0, .inl ⟨rfl, rfl⟩, rfl, h0.symm⟩
  | some p =>
    obtain ⟨v, rest⟩ := p
    obtain ⟨n, hn, h1, h2⟩ := strtod_sound s v rest h
    exact ⟨n.str, n.val, .inr ⟨n, hn, rfl, rfl⟩, h1, by rw [h2]⟩

theorem cstrtod_num (F : FP) (a : Str) (x : Rat) (h : Num a x) (rest : Str) (hr : Stops rest)
    (hb : a = [] → ∀ c, rest.head? = some c → cspace c = false ∧ c ≠ '-' ∧ c ≠ '+') :
    cstrtod F (a ++ rest) = (F.rnd x, rest) := by
  have h0 : F.rnd 0 = 0 := by
    have := F.exact 0 0 (by decide)
    simpa using this
  unfold cstrtod
  rcases h with ⟨rfl, rfl⟩ | ⟨n, hn, rfl, rfl⟩
  · have hstart := hb rfl
    have : strtod rest = none := by
      have e1 : rest.dropWhile cspace = rest := (takeWhile_append_stop cspace [] rest (by simp) (fun c hc => (hstart c hc).1)).2
      have e2 := sign_append none rest (fun c hc => (hstart c hc).2)
      simp only [sgnStr, List.nil_append] at e2
      have e3 := takeWhile_append_stop isDigit [] rest (by simp) (fun c hc => (hr c hc).1)
      simp only [List.nil_append] at e3
      have e4 : (fraction rest).1 = [] := by
        unfold fraction
        split
        · exact absurd rfl (hr '.' (by rfl)).2.1
        · rfl
      unfold strtod
      simp only [e1, e2, e3.1, e3.2, e4, and_self, if_true]
    simp only [List.nil_append, this, h0]
  · rw [strtod_numeral n hn rest hr]

end Ginga
