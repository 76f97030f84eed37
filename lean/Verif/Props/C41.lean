import Verif.Proofs.Final
import Verif.Props.C38
import Verif.Props.C42
/-!
# C41: regions are laid out relative to their parents

Specification: the rectangle of a region follows from its attributes and the rectangle of its parent (`Placed`), nested to any depth
(`Layout`).  `C41_layout`: every accepted document is laid out so, and its regions carry their rectangles as percentages of the screen.
`C41_inside`, `C41_nested`, `C41_percent`: regions whose percentages fit lie within their parents but for one pixel a level.  The
claim fails in three ways (`C41_fails_*`).
-/
namespace Ginga

/-- The value of a geometry attribute of an element, in pixels: percentages are of `base`. -/
def geoAttr (E : PRead) (x : Xml) (name : String) (base : Int) : Option Int :=
  (x.prop name).map fun v => parsePercent E.F v.toList base 0 INTMAX

/-- The rectangle `r` of the region `el` from the rectangle `par` of its parent: size from `width` and `height`, the parent's without them;
position by `left` and `top`, plus the distance from the far side that `right` and `bottom` ask for. -/
structure Placed (E : PRead) (el : Xml) (par r : Rect) : Prop where
  w : r.w = (geoAttr E el "width" par.w).getD par.w
  h : r.h = (geoAttr E el "height" par.h).getD par.h
  x : r.x = par.x + (geoAttr E el "left" par.w).getD 0 + ((geoAttr E el "right" par.w).map fun p => par.w - r.w - p).getD 0
  y : r.y = par.y + (geoAttr E el "top" par.h).getD 0 + ((geoAttr E el "bottom" par.h).map fun p => par.h - r.h - p).getD 0

/-- The rectangle an element refers to: that of the region it is in, or the screen. -/
def parentRect (scr : Rect) (ns : List Note) (n : Note) : Rect :=
  match n.parent with
  | none => scr
  | some p => match ns[p]? with
    | some m => if m.tag = "region" then m.rect else scr
    | none => scr

/-- Every region of the document is placed in its parent, and later regions are above earlier ones. -/
structure Layout (E : PRead) (scr : Rect) (ns : List Note) : Prop where
  placed : ∀ (j : Nat) (n : Note), ns[j]? = some n → n.tag = "region" → Placed E n.xml (parentRect scr ns n) n.rect
  parent : ∀ (j : Nat) (n : Note) (p : Nat), ns[j]? = some n → n.parent = some p → p < j
  z : ∀ (i j : Nat) (m n : Note), i < j → ns[i]? = some m → ns[j]? = some n → m.tag = "region" → n.tag = "region" → m.z < n.z

theorem table_regionAttrs : ∀ e ∈ syntaxTable, e.tag = "region" → ∀ a ∈ ["left", "top", "width", "height", "right", "bottom"],
    ∃ fl, (a, fl) ∈ e.attrs ∧ fl.isId = false ∧ fl.isIdRef = false := by
  have h : ∀ e ∈ syntaxTable, e.tag = "region" → ∀ a ∈ ["left", "top", "width", "height", "right", "bottom"],
      (e.attrs.any fun p => p.1 == a && !p.2.isId && !p.2.isIdRef) = true := by decide +kernel
  intro e he ht a ha
  obtain ⟨p, hp, hq⟩ := List.any_eq_true.1 (h e he ht a ha)
  simp only [Bool.and_eq_true, beq_iff_eq, Bool.not_eq_true'] at hq
  exact ⟨p.2, hq.1.1 ▸ hp, hq.1.2, hq.2⟩

theorem placed_of_rect {E : PRead} {x : Xml} {a : String → Option String} {par r : Rect}
    (ha : ∀ n ∈ ["left", "top", "width", "height", "right", "bottom"], a n = x.prop n) (h : regionRect E a par = .ok r) : Placed E x par r := by
  have hg : ∀ n ∈ ["left", "top", "width", "height", "right", "bottom"], ∀ b, regionAttr E a n b = geoAttr E x n b := by
    intro n hn b; unfold regionAttr geoAttr; rw [ha n hn]
  unfold regionRect at h
  rw [hg "left" (by decide), hg "top" (by decide), hg "width" (by decide), hg "height" (by decide), hg "right" (by decide), hg "bottom" (by decide)] at h
  have hadd : ∀ {x : Int} {o : Option Int} {y : Int}, addOpt x o = .ok y → y = x + o.getD 0 := by
    intro x o y h
    cases o with
    | none => simp [addOpt] at h; simp [h]
    | some d => simpa using int32_ok h
  have hfar : ∀ {x p w : Int} {o : Option Int} {y : Int}, fromFar x p w o = .ok y → y = x + (o.map fun q => p - w - q).getD 0 := by
    intro x p w o y h
    cases o with
    | none => simp [fromFar] at h; simp [h]
    | some d =>
      unfold fromFar at h
      obtain ⟨d1, h1, h⟩ := Res.bind_eq_ok h
      obtain ⟨d2, h2, h⟩ := Res.bind_eq_ok h
      have := int32_ok h1; have := int32_ok h2; have := int32_ok h
      simp; omega
  obtain ⟨x1, h1, h⟩ := Res.bind_eq_ok h
  obtain ⟨y1, h2, h⟩ := Res.bind_eq_ok h
  dsimp only at h
  obtain ⟨x2, h3, h⟩ := Res.bind_eq_ok h
  obtain ⟨y2, h4, h⟩ := Res.bind_eq_ok h
  have h1 := hadd h1; have h2 := hadd h2; have h3 := hfar h3; have h4 := hfar h4
  cases h
  exact ⟨rfl, rfl, by rw [h3, h1], by rw [h4, h2]⟩

theorem J.parentRect {E : PRead} {scr : Rect} {z0 : Nat} {g : List Note} {s : PS} (h : J E scr z0 g s) (n : Note) :
    rectFor scr g n.parent = Ginga.parentRect scr g n := by
  unfold rectFor Ginga.parentRect
  cases n.parent with
  | none => rfl
  | some p =>
    dsimp only
    cases hm : g[p]? with
    | none => rfl
    | some m =>
      dsimp only
      split
      · rfl
      · rename_i ht
        exact Classical.byContradiction fun hne => ht (h.rectTag (p + 1) p m (by omega) hm hne)

/-- The regions of an accepted document: `ns` are its elements in document order, with those of imported bases. -/
theorem C41_layout {E : PRead} {n : Nat} {W H : Int} {z : Nat} {x : Xml} {t : PS} (h : parseXml E n W H z x = .ok (some t)) :
    ∃ ns : List Note, Laid E [] none none 0 [x] ns ∧ ns.length = t.nelt ∧ Layout E ⟨0, 0, W, H⟩ ns ∧
      ∀ (j : Nat) (m : Note), ns[j]? = some m → m.tag = "region" → (t.elt j).tag = "region" ∧
        t.attr j "left" = some (percentText E m.rect.x W) ∧ t.attr j "top" = some (percentText E m.rect.y H) ∧
        t.attr j "width" = some (percentText E m.rect.w W) ∧ t.attr j "height" = some (percentText E m.rect.h H) ∧
        t.attr j "zOrder" = some (toString m.z) ∧ z ≤ m.z := by
  obtain ⟨ns, k, u, -, -, -, hl, hi, hp⟩ := root_laid h
  obtain ⟨u1, u2, u3, u4, hst⟩ := popNcl_stages hp
  refine ⟨ns, hl, hi.j.len.trans hst.nelt.symm, ⟨fun j m hm ht => ?_, fun j m p hm hp => ((hi.j.ok j m hm).parent p hp).1, hi.j.zlt⟩, ?_⟩
  · have hok := hi.j.ok j m hm
    have hr := hok.region ht
    rw [hi.j.parentRect] at hr
    refine placed_of_rect (fun a ha => ?_) hr
    obtain ⟨e, he, hat⟩ := hok.syn
    obtain ⟨hmem, htag⟩ := syntaxOf_mem he
    obtain ⟨fl, hfl, h1, h2⟩ := table_regionAttrs e hmem (htag.trans ht) a ha
    exact hat.plain hfl h1 h2 (by intro hc; subst hc; exact absurd ha (by decide))
  · intro j m hm ht
    have htag : (u.elt j).tag = "region" := by rw [(hi.j.tag hm).1]; exact ht
    have hte : t.elt j = u.elt j := hst.eltNe (by rw [htag]; decide)
    have hat := hi.j.region j m hm ht
    refine ⟨by rw [hte]; exact htag, ?_, ?_, ?_, ?_, ?_, (hi.j.z j m hm ht).1⟩ <;>
    · unfold PS.attr
      rw [hte, hat]
      unfold regionAttrs
      repeat first
        | rw [mget_mset_same]
        | rw [mget_mset_ne _ _ _ _ (by decide)]

/-! ## Regions that fit -/

/-- The horizontal attributes fit into a parent of width `w`, but for `k` pixels: `left` and `width`, or `width` and `right`. -/
def FitsH (E : PRead) (x : Xml) (k w : Int) : Prop :=
  (x.prop "right" = none ∧ (geoAttr E x "left" w).getD 0 + (geoAttr E x "width" w).getD w ≤ w + k) ∨
  (x.prop "left" = none ∧ ∃ p, geoAttr E x "right" w = some p ∧ (geoAttr E x "width" w).getD w + p ≤ w + k)
/-- The vertical attributes. -/
def FitsV (E : PRead) (x : Xml) (k h : Int) : Prop :=
  (x.prop "bottom" = none ∧ (geoAttr E x "top" h).getD 0 + (geoAttr E x "height" h).getD h ≤ h + k) ∨
  (x.prop "top" = none ∧ ∃ p, geoAttr E x "bottom" h = some p ∧ (geoAttr E x "height" h).getD h + p ≤ h + k)

/-- A rectangle within another, but for `k` pixels on each side. -/
def Within (k : Int) (r s : Rect) : Prop := s.x - k ≤ r.x ∧ r.x + r.w ≤ s.x + s.w + k ∧ s.y - k ≤ r.y ∧ r.y + r.h ≤ s.y + s.h + k

theorem geoAttr_range {E : PRead} {x : Xml} {a : String} {b p : Int} (h : geoAttr E x a b = some p) : 0 ≤ p ∧ p ≤ INTMAX := by
  unfold geoAttr at h
  cases hv : x.prop a with
  | none => rw [hv] at h; simp at h
  | some v =>
    rw [hv] at h
    have : parsePercent E.F v.toList b 0 INTMAX = p := by simpa using h
    rw [← this]
    exact C33_range E.F _ b 0 INTMAX (by decide)

/-- A region that fits is within its parent. -/
theorem C41_inside {E : PRead} {x : Xml} {par r : Rect} {k : Int} (hk : 0 ≤ k) (h : Placed E x par r) (hh : FitsH E x k par.w) (hv : FitsV E x k par.h) :
    Within k r par := by
  have key : ∀ (near far size : String) (w x0 rw rx : Int), rw = (geoAttr E x size w).getD w →
      rx = x0 + (geoAttr E x near w).getD 0 + ((geoAttr E x far w).map fun p => w - rw - p).getD 0 →
      ((x.prop far = none ∧ (geoAttr E x near w).getD 0 + (geoAttr E x size w).getD w ≤ w + k) ∨
        (x.prop near = none ∧ ∃ p, geoAttr E x far w = some p ∧ (geoAttr E x size w).getD w + p ≤ w + k)) →
      x0 - k ≤ rx ∧ rx + rw ≤ x0 + w + k := by
    intro near far size w x0 rw rx h1 h2 h3
    rcases h3 with ⟨h3, h4⟩ | ⟨h3, p, h4, h5⟩
    · have h5 : geoAttr E x far w = none := by unfold geoAttr; rw [h3]; rfl
      rw [h5] at h2
      have hl : 0 ≤ (geoAttr E x near w).getD 0 := by
        cases hc : geoAttr E x near w with
        | none => simp
        | some p => simpa using (geoAttr_range hc).1
      simp at h2
      omega
    · have h6 : geoAttr E x near w = none := by unfold geoAttr; rw [h3]; rfl
      have := (geoAttr_range h4).1
      rw [h6, h4] at h2
      simp at h2
      omega
  obtain ⟨a, b⟩ := key "left" "right" "width" par.w par.x r.w r.x h.w h.x hh
  obtain ⟨c, d⟩ := key "top" "bottom" "height" par.h par.y r.h r.y h.h h.y hv
  exact ⟨a, b, c, d⟩

/-- How deep a region is nested. -/
inductive RegionDepth (ns : List Note) : Nat → Nat → Prop
  | top {j n} : ns[j]? = some n → n.tag = "region" → (∀ p m, n.parent = some p → ns[p]? = some m → m.tag ≠ "region") → RegionDepth ns j 1
  | sub {j n p m d} : ns[j]? = some n → n.tag = "region" → n.parent = some p → ns[p]? = some m → m.tag = "region" → RegionDepth ns p d →
      RegionDepth ns j (d + 1)

/-- If all regions fit into their parents but for `k` pixels, a region at depth `d` is within the screen but for `d * k` pixels; with `k = 0`
it is within the screen. -/
theorem C41_nested {E : PRead} {scr : Rect} {ns : List Note} {k : Int} (hk : 0 ≤ k) (hl : Layout E scr ns)
    (hf : ∀ (j : Nat) (n : Note), ns[j]? = some n → n.tag = "region" → FitsH E n.xml k (parentRect scr ns n).w ∧ FitsV E n.xml k (parentRect scr ns n).h)
    {j d : Nat} (hd : RegionDepth ns j d) : ∀ n, ns[j]? = some n → Within (d * k) n.rect scr := by
  induction hd with
  | @top j n hn ht hp =>
    intro n' hn'
    obtain rfl : n = n' := by rw [hn] at hn'; simpa using hn'
    have : parentRect scr ns n = scr := by
      unfold parentRect
      split
      · rfl
      · rename_i p hpe
        split
        · rename_i m hm; rw [if_neg (hp p m hpe hm)]
        · rfl
    have hi := C41_inside hk (hl.placed j n hn ht) (hf j n hn ht).1 (hf j n hn ht).2
    rw [this] at hi
    simpa using hi
  | @sub j n p m d hn ht hp hm hmt hd ih =>
    intro n' hn'
    obtain rfl : n = n' := by rw [hn] at hn'; simpa using hn'
    have : parentRect scr ns n = m.rect := by
      unfold parentRect
      rw [hp]; dsimp only; rw [hm]; dsimp only; rw [if_pos hmt]
    have hi := C41_inside hk (hl.placed j n hn ht) (hf j n hn ht).1 (hf j n hn ht).2
    rw [this] at hi
    have ih := ih m hm
    unfold Within at *
    have : ((d + 1 : Nat) : Int) * k = d * k + k := by push_cast; ring
    rw [this]
    generalize (d : Int) * k = dk at *
    omega

/-! ## Percentages -/

theorem lround_le (v : ℚ) (hv : 0 ≤ v) : (lround v : ℚ) ≤ v + 1 / 2 ∧ 0 ≤ lround v := by
  unfold lround
  rw [if_pos hv]
  refine ⟨?_, ?_⟩
  · exact Rat.floor_le _
  · rw [Rat.le_floor_iff]; push_cast; linarith

/-- A percentage of a width, in pixels. -/
theorem percent_value {u : ℚ} (F : FPE u) (a : Numeral) (ha : a.WF) (rest : Str) (h0 : 0 ≤ a.val) (h1 : a.val ≤ 100) (W : Int) (hW : 0 ≤ W) (hW2 : W ≤ INTMAX) :
    (parsePercent F.toFP (a.str ++ '%' :: rest) W 0 INTMAX : ℚ) ≤ a.val / 100 * W * (1 + u) ^ 3 + 1 / 2 ∧
      parsePercent F.toFP (a.str ++ '%' :: rest) W 0 INTMAX ≤ W := by
  have hu := F.unit.1
  have hW' : (0 : ℚ) ≤ W := by exact_mod_cast hW
  have hpos : ∀ x : ℚ, 0 ≤ x → 0 ≤ F.rnd x ∧ F.rnd x ≤ x * (1 + u) := by
    intro x hx
    have h0 := F.mono 0 x hx
    have hz : F.rnd 0 = 0 := by have := F.exact 0 0 (by decide); simpa using this
    have he := F.err x
    rw [abs_of_nonneg hx, abs_le] at he
    exact ⟨hz ▸ h0, by linarith⟩
  have hint : ∀ m : Int, 0 ≤ m → m ≤ INTMAX → F.rnd m = m := by
    intro m h0 h1
    have hI : INTMAX = 2 ^ 31 - 1 := rfl
    have := F.exact m 0 (by omega)
    simpa using this
  unfold parsePercent
  rw [orPercent_percent F.toFP a ha rest]
  dsimp only
  rw [if_pos rfl]
  obtain ⟨a1, a2⟩ := hpos a.val h0
  have a3 : F.rnd a.val ≤ 100 := by
    have := F.mono _ _ h1
    have h2 := hint 100 (by decide) (by decide)
    push_cast at h2
    linarith
  obtain ⟨b1, b2⟩ := hpos (F.rnd a.val / 100) (by positivity)
  have b3 : F.rnd (F.rnd a.val / 100) ≤ 1 := by
    have := F.mono (F.rnd a.val / 100) 1 (by linarith)
    have h2 := hint 1 (by decide) (by decide)
    push_cast at h2
    linarith
  obtain ⟨c1, c2⟩ := hpos (F.rnd (F.rnd a.val / 100) * W) (by positivity)
  have c3 : F.rnd (F.rnd (F.rnd a.val / 100) * W) ≤ W := by
    have := F.mono (F.rnd (F.rnd a.val / 100) * W) W (by nlinarith)
    have h2 := hint W hW hW2
    linarith
  have c4 : F.rnd (F.rnd (F.rnd a.val / 100) * W) ≤ a.val / 100 * W * (1 + u) ^ 3 := by
    have e1 : F.rnd (F.rnd a.val / 100) ≤ a.val / 100 * (1 + u) ^ 2 := by
      have : F.rnd a.val / 100 * (1 + u) ≤ a.val * (1 + u) / 100 * (1 + u) :=
        mul_le_mul_of_nonneg_right (by linarith) (by linarith)
      calc _ ≤ F.rnd a.val / 100 * (1 + u) := b2
        _ ≤ a.val * (1 + u) / 100 * (1 + u) := this
        _ = _ := by ring
    have e2 : F.rnd (F.rnd a.val / 100) * W * (1 + u) ≤ a.val / 100 * (1 + u) ^ 2 * W * (1 + u) :=
      mul_le_mul_of_nonneg_right (mul_le_mul_of_nonneg_right e1 hW') (by linarith)
    calc _ ≤ F.rnd (F.rnd a.val / 100) * W * (1 + u) := c2
      _ ≤ _ := e2
      _ = _ := by ring
  generalize F.rnd (F.rnd (F.rnd a.val / 100) * W) = v at *
  obtain ⟨l1, l2⟩ := lround_le v c1
  have l3 : lround v ≤ W := by
    have : (lround v : ℚ) < ((W + 1 : Int) : ℚ) := by push_cast; linarith
    have := Int.cast_lt.1 this
    omega
  have hI : INTMAX = 2 ^ 31 - 1 := rfl
  have l4 : toInt32 (lround v) = lround v := by unfold toInt32; omega
  have l5 : clamp (lround v) 0 INTMAX = lround v := by unfold clamp; split_ifs <;> omega
  rw [l4, l5]
  exact ⟨by linarith, l3⟩

/-- Two percentages that make up at most 100% do not exceed the width by more than one pixel. -/
theorem C41_percent {u : ℚ} (F : FPE u) (a b : Numeral) (ha : a.WF) (hb : b.WF) (ra rb : Str) (ha0 : 0 ≤ a.val) (hb0 : 0 ≤ b.val) (hs : a.val + b.val ≤ 100)
    (W : Int) (hW : 0 ≤ W) (hW2 : W ≤ INTMAX) :
    parsePercent F.toFP (a.str ++ '%' :: ra) W 0 INTMAX + parsePercent F.toFP (b.str ++ '%' :: rb) W 0 INTMAX ≤ W + 1 := by
  obtain ⟨h1, -⟩ := percent_value F a ha ra ha0 (by linarith) W hW hW2
  obtain ⟨h2, -⟩ := percent_value F b hb rb hb0 (by linarith) W hW hW2
  have hW' : (0 : ℚ) ≤ W := by exact_mod_cast hW
  have hI : INTMAX = 2 ^ 31 - 1 := rfl
  have hW3 : (W : ℚ) ≤ 2 ^ 31 := by
    have : W ≤ 2 ^ 31 := by omega
    exact_mod_cast this
  obtain ⟨hu0, hu1⟩ := F.unit
  have h3 : (1 + u) ^ 3 ≤ 1 + 1 / 2 ^ 40 := by
    have : (1 + u) ^ 3 ≤ (1 + 1 / 2 ^ 53) ^ 3 := pow_le_pow_left₀ (by linarith) (by linarith) 3
    have : ((1 : ℚ) + 1 / 2 ^ 53) ^ 3 ≤ 1 + 1 / 2 ^ 40 := by norm_num
    linarith
  have h4 : a.val / 100 * W * (1 + u) ^ 3 + b.val / 100 * W * (1 + u) ^ 3 ≤ W + 1 / 2 := by
    have e1 : a.val / 100 * W * (1 + u) ^ 3 + b.val / 100 * W * (1 + u) ^ 3 = (a.val + b.val) / 100 * W * (1 + u) ^ 3 := by ring
    have e2 : (a.val + b.val) / 100 * W ≤ W := by nlinarith
    have e3 : (a.val + b.val) / 100 * W * (1 + u) ^ 3 ≤ W * (1 + 1 / 2 ^ 40) :=
      mul_le_mul e2 h3 (by positivity) hW'
    rw [e1]
    have : (W : ℚ) * (1 / 2 ^ 40) ≤ 1 / 2 := by
      calc (W : ℚ) * (1 / 2 ^ 40) ≤ 2 ^ 31 * (1 / 2 ^ 40) := mul_le_mul_of_nonneg_right hW3 (by positivity)
        _ ≤ 1 / 2 := by norm_num
    linarith
  have h5 : ((parsePercent F.toFP (a.str ++ '%' :: ra) W 0 INTMAX + parsePercent F.toFP (b.str ++ '%' :: rb) W 0 INTMAX : Int) : ℚ) < ((W + 2 : Int) : ℚ) := by
    push_cast; linarith
  have := Int.cast_lt.1 h5
  omega

/-- The attribute is the percentage `v`, or it is not there and `v` is what stands for it. -/
def Pct (x : Xml) (name : String) (dflt v : ℚ) : Prop :=
  (x.prop name = none ∧ v = dflt) ∨ ∃ a : Numeral, a.WF ∧ x.prop name = some (String.ofList (a.str ++ ['%'])) ∧ v = a.val

/-- The position, from one side, and the size are percentages that make up at most 100%. -/
def PctFits (x : Xml) (near far size : String) : Prop :=
  ∃ p q : ℚ, 0 ≤ p ∧ 0 ≤ q ∧ p + q ≤ 100 ∧ Pct x size 100 q ∧
    ((x.prop far = none ∧ Pct x near 0 p) ∨ (x.prop near = none ∧ x.prop far ≠ none ∧ Pct x far 0 p))

theorem pct_bound {u : ℚ} {F : FPE u} {E : PRead} (hF : E.F = F.toFP) {x : Xml} {name : String} {dflt v : ℚ} {d : Int} {W : Int} (hW : 0 ≤ W) (hW2 : W ≤ INTMAX)
    (hd : (d : ℚ) ≤ dflt / 100 * W) (h : Pct x name dflt v) (h0 : 0 ≤ v) (h1 : v ≤ 100) :
    (((geoAttr E x name W).getD d : Int) : ℚ) ≤ v / 100 * W * (1 + u) ^ 3 + 1 / 2 := by
  have hW' : (0 : ℚ) ≤ W := by exact_mod_cast hW
  obtain ⟨hu0, -⟩ := F.unit
  rcases h with ⟨h, rfl⟩ | ⟨a, ha, h, rfl⟩
  · have : geoAttr E x name W = none := by unfold geoAttr; rw [h]; rfl
    rw [this]
    show (d : ℚ) ≤ _
    have h3 : (1 : ℚ) ≤ (1 + u) ^ 3 := one_le_pow₀ (by linarith)
    have : v / 100 * W ≤ v / 100 * W * (1 + u) ^ 3 := le_mul_of_one_le_right (by positivity) h3
    linarith
  · have : geoAttr E x name W = some (parsePercent F.toFP (a.str ++ ['%']) W 0 INTMAX) := by
      unfold geoAttr; rw [h, hF]; simp
    rw [this]
    exact (percent_value F a ha [] h0 h1 W hW hW2).1

theorem pct_sum {u : ℚ} (F : FPE u) {a b W : Int} (hW : 0 ≤ W) (hW2 : W ≤ INTMAX) {p q : ℚ} (hs : p + q ≤ 100) (hp : 0 ≤ p) (hq : 0 ≤ q)
    (h1 : (a : ℚ) ≤ p / 100 * W * (1 + u) ^ 3 + 1 / 2) (h2 : (b : ℚ) ≤ q / 100 * W * (1 + u) ^ 3 + 1 / 2) : a + b ≤ W + 1 := by
  have hW' : (0 : ℚ) ≤ W := by exact_mod_cast hW
  have hI : INTMAX = 2 ^ 31 - 1 := rfl
  have hW3 : (W : ℚ) ≤ 2 ^ 31 := by
    have : W ≤ 2 ^ 31 := by omega
    exact_mod_cast this
  obtain ⟨hu0, hu1⟩ := F.unit
  have h3 : (1 + u) ^ 3 ≤ 1 + 1 / 2 ^ 40 := by
    have : (1 + u) ^ 3 ≤ (1 + 1 / 2 ^ 53) ^ 3 := pow_le_pow_left₀ (by linarith) (by linarith) 3
    have : ((1 : ℚ) + 1 / 2 ^ 53) ^ 3 ≤ 1 + 1 / 2 ^ 40 := by norm_num
    linarith
  have h4 : p / 100 * W * (1 + u) ^ 3 + q / 100 * W * (1 + u) ^ 3 ≤ W + 1 / 2 := by
    have e1 : p / 100 * W * (1 + u) ^ 3 + q / 100 * W * (1 + u) ^ 3 = (p + q) / 100 * W * (1 + u) ^ 3 := by ring
    have e2 : (p + q) / 100 * W ≤ W := by nlinarith
    have e3 : (p + q) / 100 * W * (1 + u) ^ 3 ≤ W * (1 + 1 / 2 ^ 40) :=
      mul_le_mul e2 h3 (by positivity) hW'
    rw [e1]
    have : (W : ℚ) * (1 / 2 ^ 40) ≤ 1 / 2 := by
      calc (W : ℚ) * (1 / 2 ^ 40) ≤ 2 ^ 31 * (1 / 2 ^ 40) := mul_le_mul_of_nonneg_right hW3 (by positivity)
        _ ≤ 1 / 2 := by norm_num
    linarith
  have h5 : ((a + b : Int) : ℚ) < ((W + 2 : Int) : ℚ) := by push_cast; linarith
  have := Int.cast_lt.1 h5
  omega

theorem pct_fits {u : ℚ} {F : FPE u} {E : PRead} (hF : E.F = F.toFP) {x : Xml} {near far size : String} {W : Int} (hW : 0 ≤ W) (hW2 : W ≤ INTMAX)
    (h : PctFits x near far size) :
    (x.prop far = none ∧ (geoAttr E x near W).getD 0 + (geoAttr E x size W).getD W ≤ W + 1) ∨
    (x.prop near = none ∧ ∃ p, geoAttr E x far W = some p ∧ (geoAttr E x size W).getD W + p ≤ W + 1) := by
  obtain ⟨p, q, hp, hq, hs, hsize, h⟩ := h
  have b1 := pct_bound hF hW hW2 (d := W) (by linarith) hsize hq (by linarith)
  rcases h with ⟨h1, h2⟩ | ⟨h1, h2, h3⟩
  · exact .inl ⟨h1, pct_sum F hW hW2 hs hp hq (pct_bound hF hW hW2 (d := 0) (by norm_num) h2 hp (by linarith)) b1⟩
  · have b2 := pct_bound hF hW hW2 (d := 0) (by norm_num) h3 hp (by linarith)
    have hg : ∃ r, geoAttr E x far W = some r := by
      unfold geoAttr
      cases hc : x.prop far with
      | none => exact absurd hc h2
      | some v => exact ⟨_, rfl⟩
    obtain ⟨r, hr⟩ := hg
    rw [hr] at b2
    refine .inr ⟨h1, r, hr, pct_sum F hW hW2 (by linarith) hq hp b1 b2⟩

/-- The sizes of all rectangles are sensible. -/
theorem Layout.sizes {E : PRead} {W H : Int} (hW : 0 ≤ W ∧ W ≤ INTMAX) (hH : 0 ≤ H ∧ H ≤ INTMAX) {ns : List Note} (hl : Layout E ⟨0, 0, W, H⟩ ns) :
    ∀ (k j : Nat) (n : Note), j < k → ns[j]? = some n → (0 ≤ (parentRect ⟨0, 0, W, H⟩ ns n).w ∧ (parentRect ⟨0, 0, W, H⟩ ns n).w ≤ INTMAX) ∧
      (0 ≤ (parentRect ⟨0, 0, W, H⟩ ns n).h ∧ (parentRect ⟨0, 0, W, H⟩ ns n).h ≤ INTMAX)
  | 0, _, _, h, _ => by omega
  | k + 1, j, n, hj, hn => by
    unfold parentRect
    split
    · exact ⟨hW, hH⟩
    rename_i p hp
    split
    · rename_i m hm
      split
      · rename_i ht
        have hlt := hl.parent j n p hn hp
        obtain ⟨h1, h2⟩ := hl.sizes hW hH k p m (by omega) hm
        have hpl := hl.placed p m hm ht
        have key : ∀ (s : String) (d : Int), 0 ≤ d ∧ d ≤ INTMAX → 0 ≤ (geoAttr E m.xml s d).getD d ∧ (geoAttr E m.xml s d).getD d ≤ INTMAX := by
          intro s d hd
          cases hc : geoAttr E m.xml s d with
          | none => exact hd
          | some q => exact geoAttr_range hc
        rw [hpl.w, hpl.h]
        exact ⟨key _ _ h1, key _ _ h2⟩
      · exact ⟨hW, hH⟩
    · exact ⟨hW, hH⟩

/-- If the attributes of all regions are percentages that fit, then a region at depth `d` is within the screen but for `d` pixels on each
side.  Missing: that it is within the screen (`C41_fails_rounding`), and regions for which left, width and right are all given, or only
left (`C41_fails_right`, `C41_fails_left`). -/
theorem C41_screen_partial {u : ℚ} (F : FPE u) {E : PRead} (hF : E.F = F.toFP) {n : Nat} {W H : Int} {z : Nat} {x : Xml} {t : PS}
    (h : parseXml E n W H z x = .ok (some t)) (hW : W ≤ INTMAX) (hH : H ≤ INTMAX) :
    ∃ ns : List Note, Laid E [] none none 0 [x] ns ∧ Layout E ⟨0, 0, W, H⟩ ns ∧
      ((∀ m ∈ ns, m.tag = "region" → PctFits m.xml "left" "right" "width" ∧ PctFits m.xml "top" "bottom" "height") →
        ∀ (j d : Nat) (m : Note), RegionDepth ns j d → ns[j]? = some m → Within d m.rect ⟨0, 0, W, H⟩) := by
  have hWH : 0 < W ∧ 0 < H := by
    obtain ⟨_, _, _, _, h1, h2, _⟩ := root_laid h
    exact ⟨h1, h2⟩
  obtain ⟨ns, hl, -, hlay, -⟩ := C41_layout h
  refine ⟨ns, hl, hlay, fun hf j d m hd hm => ?_⟩
  have := C41_nested (k := 1) (by decide) hlay (fun j m hm ht => ?_) hd m hm
  · simpa using this
  · obtain ⟨h1, h2⟩ := hf m (List.mem_of_getElem? hm) ht
    obtain ⟨s1, s2⟩ := hlay.sizes ⟨by omega, hW⟩ ⟨by omega, hH⟩ (j + 1) j m (by omega) hm
    exact ⟨pct_fits hF s1.1 s1.2 h1, pct_fits hF s2.1 s2.2 h2⟩

/-! ## Failures -/

/-- A document with one region. -/
def docRegion (attrs : List (String × String)) : Xml :=
  .elem "ncl" [] [.elem "head" [] [.elem "regionBase" [] [.elem "region" (("id", "r") :: attrs) []]], .elem "body" [] []]

/-- An environment that prints numbers as they are. -/
def pread1 : PRead := { pread0 with fmtG := fun q => toString q.num ++ (if q.den = 1 then "" else "/" ++ toString q.den) }

/-- The geometry of the region of a document. -/
def regionOf (r : Res (Option PS)) : Option (List (Option String)) :=
  match r with
  | .ok (some s) => (s.byId "r" ["region"]).map fun k => [s.attr k "left", s.attr k "width"]
  | _ => none

/-- `left="50%" width="50%"` on a screen of 801 pixels: the region starts at pixel 401 and is 401 pixels wide. -/
theorem C41_fails_rounding : regionOf (parseXml pread1 20 801 600 0 (docRegion [("left", "50%"), ("width", "50%")])) =
    some [some "40100/801%", some "40100/801%"] := by decide +kernel

/-- `left="40%" width="50%" right="10%"`, which agree with each other: the region is moved by the left margin twice, and ends outside
the screen. -/
theorem C41_fails_right : regionOf (parseXml pread1 20 800 600 0 (docRegion [("left", "40%"), ("width", "50%"), ("right", "10%")])) =
    some [some "80%", some "50%"] := by decide +kernel

/-- `left="25%"` without a width: the region is as wide as the screen and ends outside it; with `right="25%"` as well it covers all of it. -/
theorem C41_fails_left : regionOf (parseXml pread1 20 800 600 0 (docRegion [("left", "25%")])) = some [some "25%", some "100%"] ∧
    regionOf (parseXml pread1 20 800 600 0 (docRegion [("left", "25%"), ("right", "25%")])) = some [some "0%", some "100%"] := by decide +kernel

/-- Nested regions. -/
example : regionOf (parseXml pread1 20 800 600 0 (.elem "ncl" [] [.elem "head" [] [.elem "regionBase" []
    [.elem "region" [("id", "a"), ("left", "25%"), ("width", "50%")] [.elem "region" [("id", "r"), ("width", "25%"), ("right", "0%")] []]]],
    .elem "body" [] []])) = some [some "125/2%", some "25/2%"] := by decide +kernel

end Ginga
