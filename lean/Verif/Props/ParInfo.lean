import Verif.Lemmas.ParFinish
import Verif.Model.Strtod

/-!
# C01, C02, C03: parameters and their notation
-/

namespace Spot
open Notation

/-- What every user of a parameter relies on. -/
def ValidParam (p : ParInfo) : Prop :=
  p.mean ≠ .nan ∧ Dbl.le (.fin 0) p.std = true ∧ Dbl.le p.min p.max = true ∧
    Dbl.le p.min p.mean = true ∧ Dbl.le p.mean p.max = true

instance (p : ParInfo) : Decidable (ValidParam p) := inferInstanceAs (Decidable (_ ∧ _))

theorem isValid_iff (p : ParInfo) : p.isValid = true ↔ ValidParam p := by
  obtain ⟨n, m, s, lo, hi⟩ := p
  simp [isValid_mk, ValidParam, Dbl.isNaN_false_iff, and_assoc]

/-- C01: the first constructor either returns exactly the given parameter, and then it is valid, or throws. -/
theorem C01_constructor (name : Str) (mean std min max : Dbl) :
    ParInfo.make name mean std min max =
      if ValidParam ⟨name, mean, std, min, max⟩ then .ok ⟨name, mean, std, min, max⟩ else .err := by
  unfold ParInfo.make
  by_cases h : ValidParam ⟨name, mean, std, min, max⟩
  · simp [h, (isValid_iff _).2 h]
  · rw [if_neg h, if_neg]; rwa [isValid_iff]

theorem finish_ok {name : Str} {o : ParOptions} {p : PState} {pi : ParInfo} (h : finish name o p = .ok pi) :
    ValidParam pi ∧ pi.name = name ∧ Dbl.lt pi.min pi.max = true ∧ pi.min = p.min ∧ pi.max = p.max := by
  unfold finish at h
  simp only [Res.bind_eq_ok, Res.errIf_eq_ok] at h
  obtain ⟨_, _, _, h2, _, _, h⟩ := h
  generalize hq : (if (p.stdSet && p.mean.isNaN) = true then _ else p) = q at h
  have e1 : q.min = p.min ∧ q.max = p.max := by
    rw [← hq]; split <;> exact ⟨rfl, rfl⟩
  generalize hq' : (if (!Dbl.eq q.min o.lower && !Dbl.eq q.max o.upper) = true then _ else q) = q' at h
  have e2 : q'.min = q.min ∧ q'.max = q.max := by
    rw [← hq']; split
    · split <;> split <;> exact ⟨rfl, rfl⟩
    · exact ⟨rfl, rfl⟩
  rw [C01_constructor] at h
  split at h
  · rename_i hv
    cases h
    refine ⟨hv, rfl, ?_, by simp [e1, e2], by simp [e1, e2]⟩
    rw [lt_eq_le_not_le]
    simp only [Bool.and_eq_true, Bool.not_eq_true']
    exact ⟨hv.2.2.1, by simpa [e1, e2] using h2⟩
  · cases h

theorem finish_ne_ub (name : Str) (o : ParOptions) (p : PState) : finish name o p ≠ .ub := by
  unfold finish
  simp only [errIf_bind, C01_constructor]
  split_ifs <;> simp

/-- C01: a parameter constructed from a prop_node (text or children) is valid, has the requested name and a non-empty
interior of its range; the constructor always terminates, with a parameter or an exception. -/
theorem C01_from_prop_node (R : Reader) (name : Str) (pn : PNode) (o : ParOptions) :
    (∃ p, ParInfo.parse R name pn o = .ok p ∧ ValidParam p ∧ p.name = name ∧ Dbl.lt p.min p.max = true) ∨
      ParInfo.parse R name pn o = .err := by
  have key : ∀ p, (∃ pi, finish name o p = .ok pi ∧ ValidParam pi ∧ pi.name = name ∧ Dbl.lt pi.min pi.max = true) ∨
      finish name o p = .err := by
    intro p
    cases h : finish name o p with
    | ok pi => exact Or.inl ⟨pi, rfl, (finish_ok h).1, (finish_ok h).2.1, (finish_ok h).2.2.1⟩
    | err => exact Or.inr rfl
    | ub => exact absurd h (finish_ne_ub name o p)
  have lift : ∀ r : Res PState, r ≠ .ub → (∃ p, (r >>= finish name o) = .ok p ∧ ValidParam p ∧ p.name = name ∧
      Dbl.lt p.min p.max = true) ∨ (r >>= finish name o) = .err := by
    intro r hr
    cases r with
    | ok p => exact key p
    | err => exact Or.inr rfl
    | ub => exact absurd rfl hr
  unfold ParInfo.parse
  apply lift
  unfold readNode
  split
  · have hga : ∀ ks, pn.getAny ks ≠ .ub := by
      intro ks
      induction ks with
      | nil => simp [PNode.getAny]
      | cons k ks ih => rw [PNode.getAny]; split <;> simp_all
    have hgd : ∀ k d, pn.getD k d ≠ .ub := by
      intro k d; unfold PNode.getD; split <;> simp
    have bnd : ∀ {α β : Type} (r : Res α) (f : α → Res β), r ≠ .ub → (∀ a, f a ≠ .ub) → (r >>= f) ≠ .ub := by
      intro α β r f h1 h2; cases r <;> simp_all
    exact bnd _ _ (hga _) fun _ => bnd _ _ (hga _) fun _ => bnd _ _ (hgd _ _) fun _ => bnd _ _ (hgd _ _) fun _ => by simp
  · exact parseAll_ne_ub R _ _ _ rfl

example : ParInfo.make "a".toList (.fin 1) (.fin (1/2)) (.fin 0) (.fin 2) = .ok ⟨"a".toList, .fin 1, .fin (1/2), .fin 0, .fin 2⟩ := by
  simp [ParInfo.make, ParInfo.isValid]
example : ParInfo.make "a".toList .nan (.fin 1) (.fin 0) (.fin 2) = .err := by simp [ParInfo.make, ParInfo.isValid]

/-- C02: a text consisting of at most one mean, at most one std and at most one range, in any order and with any white space
between them, denotes exactly what the notation says (`meaning`); it is rejected exactly when that is not a proper parameter. -/
theorem C02_notation_decoded (R : Reader) (name : Str) (o : ParOptions) (s r : Str) (items : List Item)
    (m sd : Option Dbl) (rg : Option (Bracket × Dbl × Dbl))
    (hs : Lexes R s items r) (hr : Blank r)
    (hitems : items.Perm ((m.map Item.mean).toList ++ (sd.map Item.std).toList ++
      (rg.map fun x => Item.range x.1 x.2.1 x.2.2).toList))
    (hm : m ≠ some .nan) :
    ParInfo.parse R name { str := s } o =
      match meaning o.autoStdFactor o.autoStdOffset o.autoStdMinimum o.lower o.upper m sd (rg.map Prod.snd) with
      | some q => if proper q then .ok ⟨name, q.1, q.2.1, q.2.2.1, q.2.2.2⟩ else .err
      | none => .err := by
  have h := finish_parts name o m sd rg hm
  unfold ParInfo.parse readNode
  simp only [ne_eq, not_true_eq_false, if_false]
  change (parseAll R (PState.init o) { rest := s } >>= _) = _
  rw [parseAll_lexes hs, applyItems_parts o m sd rg items hitems, Res.ok_bind, parseAll_blank hr, Res.ok_bind]
  exact h

/-- C02, `mean~std[min,max]` with everything given: exactly these four numbers. -/
theorem C02_full (R : Reader) (name : Str) (o : ParOptions) (s : Str) (b : Bracket) (m sd lo hi : Dbl)
    (items : List Item) (hitems : items.Perm [.mean m, .std sd, .range b lo hi]) (hs : Lexes R s items [])
    (hstd : Dbl.lt (.fin 0) sd = true) (hlohi : Dbl.lt lo hi = true) (h1 : Dbl.le lo m = true) (h2 : Dbl.le m hi = true) :
    ParInfo.parse R name { str := s } o = .ok ⟨name, m, sd, lo, hi⟩ := by
  have hmn := Dbl.ne_nan_of_le_right h1
  rw [C02_notation_decoded R name o s [] items (some m) (some sd) (some (b, lo, hi)) hs (by simp [Blank]) hitems
    (by simpa using hmn)]
  have : Dbl.eq sd (.fin 0) = false := by
    cases sd <;> simp_all [Dbl.lt, Dbl.eq]
    rintro rfl; exact absurd hstd (_root_.lt_irrefl _)
  have hn : m.isNaN = false := (Dbl.isNaN_false_iff m).2 hmn
  simp [meaning, this, proper, hn, Dbl.le_of_lt hstd, hlohi, h1, h2]

/-- C02, `~v` with default bounds: mean `v`, and the automatic standard deviation. -/
theorem C02_tilde_only (R : Reader) (name : Str) (o : ParOptions) (s : Str) (v : Dbl) (hs : Lexes R s [.std v] [])
    (h0 : Dbl.eq v (.fin 0) = false) (h1 : Dbl.le o.lower v = true) (h2 : Dbl.le v o.upper = true)
    (h3 : Dbl.lt o.lower o.upper = true)
    (h4 : Dbl.le (.fin 0) (Dbl.max (Dbl.add (Dbl.mul o.autoStdFactor v.abs) o.autoStdOffset) o.autoStdMinimum) = true) :
    ParInfo.parse R name { str := s } o =
      .ok ⟨name, v, Dbl.max (Dbl.add (Dbl.mul o.autoStdFactor v.abs) o.autoStdOffset) o.autoStdMinimum, o.lower, o.upper⟩ := by
  rw [C02_notation_decoded R name o s [] [.std v] none (some v) none hs (by simp [Blank]) (by simp) (by simp)]
  have hn : v.isNaN = false := (Dbl.isNaN_false_iff v).2 (Dbl.ne_nan_of_le_right h1)
  have hl : Dbl.eq o.lower o.lower = true := (Dbl.eq_self_iff _).2 (Dbl.ne_nan_of_le_left h1)
  simp [meaning, h0, hl, proper, hn, h1, h2, h3, h4]

/-- C02, a range only: the midpoint and a quarter of the width. -/
theorem C02_range_only (R : Reader) (name : Str) (o : ParOptions) (s : Str) (b : Bracket) (lo hi : Dbl)
    (hs : Lexes R s [.range b lo hi] []) (hl : Dbl.eq lo o.lower = false) (hu : Dbl.eq hi o.upper = false)
    (hp : proper (Dbl.add lo (Dbl.divQ (Dbl.sub hi lo) 2), Dbl.divQ (Dbl.sub hi lo) 4, lo, hi) = true) :
    ParInfo.parse R name { str := s } o =
      .ok ⟨name, Dbl.add lo (Dbl.divQ (Dbl.sub hi lo) 2), Dbl.divQ (Dbl.sub hi lo) 4, lo, hi⟩ := by
  rw [C02_notation_decoded R name o s [] _ none none (some (b, lo, hi)) hs (by simp [Blank]) (by simp) (by simp)]
  simp [meaning, hl, hu, hp]

/-- C02, `mean~std` without range gets the default bounds. -/
theorem C02_mean_std (R : Reader) (name : Str) (o : ParOptions) (s : Str) (m sd : Dbl)
    (items : List Item) (hitems : items.Perm [.mean m, .std sd]) (hs : Lexes R s items [])
    (hstd : Dbl.le (.fin 0) sd = true) (h1 : Dbl.le o.lower m = true) (h2 : Dbl.le m o.upper = true)
    (h3 : Dbl.lt o.lower o.upper = true) :
    ParInfo.parse R name { str := s } o = .ok ⟨name, m, sd, o.lower, o.upper⟩ := by
  have hmn := Dbl.ne_nan_of_le_right h1
  rw [C02_notation_decoded R name o s [] items (some m) (some sd) none hs (by simp [Blank]) hitems (by simpa using hmn)]
  have hn : m.isNaN = false := (Dbl.isNaN_false_iff m).2 hmn
  have hl : Dbl.eq o.lower o.lower = true := (Dbl.eq_self_iff _).2 (Dbl.ne_nan_of_le_left h1)
  simp [meaning, hl, proper, hn, hstd, h1, h2, h3]

/-! ## C03 -/

theorem parse_text (R : Reader) (name : Str) (o : ParOptions) (s : Str) :
    ParInfo.parse R name { str := s } o = parseAll R (PState.init o) { rest := s } >>= finish name o := by
  unfold ParInfo.parse readNode
  simp only [ne_eq, not_true_eq_false, if_false]
  rfl

theorem parse_err_of_items {R : Reader} {name : Str} {o : ParOptions} {s r : Str} {items : List Item}
    (hs : Lexes R s items r) (h : ∀ p, applyItems (PState.init o) items = .ok p → parseAll R p { rest := r } = .err) :
    ParInfo.parse R name { str := s } o = .err := by
  rw [parse_text, parseAll_lexes hs]
  cases h1 : applyItems (PState.init o) items with
  | ok p => simp [h p h1]
  | err => rfl
  | ub => exact absurd h1 (applyItems_ne_ub _ _)

theorem mean_stays {p q : PState} {items : List Item} (h : applyItems p items = .ok q) (hm : p.mean.isNaN = false) :
    q.mean.isNaN = false := by
  induction items generalizing p with
  | nil => simp [applyItems] at h; rwa [← h]
  | cons i is ih =>
    rw [applyItems, Res.bind_eq_ok] at h
    obtain ⟨p', h1, h2⟩ := h
    refine ih h2 ?_
    cases i <;> simp [applyItem, hm] at h1
    · obtain ⟨_, rfl⟩ := h1; exact hm
    · subst h1; exact hm

theorem std_stays {p q : PState} {items : List Item} (h : applyItems p items = .ok q) (hm : Dbl.eq p.std (.fin 0) = false) :
    Dbl.eq q.std (.fin 0) = false := by
  induction items generalizing p with
  | nil => simp [applyItems] at h; rwa [← h]
  | cons i is ih =>
    rw [applyItems, Res.bind_eq_ok] at h
    obtain ⟨p', h1, h2⟩ := h
    refine ih h2 ?_
    cases i <;> simp [applyItem, hm] at h1
    · obtain ⟨_, rfl⟩ := h1; exact hm
    · subst h1; exact hm

/-- C03: a second mean is rejected, wherever it stands and whatever follows. -/
theorem C03_second_mean (R : Reader) (name : Str) (o : ParOptions) (s r : Str) (a b : List Item) (v w : Dbl)
    (hv : v ≠ .nan) (hs : Lexes R s (a ++ .mean v :: b ++ [.mean w]) r) :
    ParInfo.parse R name { str := s } o = .err := by
  refine parse_err_of_items hs fun p hp => ?_
  exfalso
  rw [applyItems_append, Res.bind_eq_ok] at hp
  obtain ⟨p1, h1, h2⟩ := hp
  rw [applyItems_append, Res.bind_eq_ok] at h1
  obtain ⟨p0, _, h1⟩ := h1
  rw [applyItems, Res.bind_eq_ok] at h1
  obtain ⟨p2, h3, h1⟩ := h1
  have hn : p2.mean.isNaN = false := by
    simp only [applyItem] at h3
    split at h3
    · cases h3; exact (Dbl.isNaN_false_iff v).2 hv
    · cases h3
  have := mean_stays h1 hn
  simp [applyItems, applyItem, this] at h2

/-- C03: a second std is rejected if the first one was not zero. -/
theorem C03_second_std (R : Reader) (name : Str) (o : ParOptions) (s r : Str) (a b : List Item) (v w : Dbl)
    (hv : v ≠ .fin 0) (hs : Lexes R s (a ++ .std v :: b ++ [.std w]) r) :
    ParInfo.parse R name { str := s } o = .err := by
  refine parse_err_of_items hs fun p hp => ?_
  exfalso
  rw [applyItems_append, Res.bind_eq_ok] at hp
  obtain ⟨p1, h1, h2⟩ := hp
  rw [applyItems_append, Res.bind_eq_ok] at h1
  obtain ⟨p0, _, h1⟩ := h1
  rw [applyItems, Res.bind_eq_ok] at h1
  obtain ⟨p2, h3, h1⟩ := h1
  have hn : Dbl.eq p2.std (.fin 0) = false := by
    simp only [applyItem] at h3
    split at h3
    · cases h3
      cases h : Dbl.eq v (.fin 0) with
      | false => rfl
      | true => exact absurd ((Dbl.eq_iff _ _).1 h).1 hv
    · cases h3
  have := std_stays h1 hn
  simp [applyItems, applyItem, this] at h2

/-- C03: text that starts neither a number nor one of the other components is rejected. -/
theorem C03_unreadable_mean (R : Reader) (name : Str) (o : ParOptions) (s w u : Str) (c : Char) (items : List Item)
    (hs : Lexes R s items (w ++ c :: u)) (hw : Blank w) (hc : MeanStart c) (hr : R.rd (c :: u) = none) :
    ParInfo.parse R name { str := s } o = .err := by
  refine parse_err_of_items hs fun p _ => ?_
  obtain ⟨h0, h1, h2, h3, h4⟩ := hc
  have hn : CS.num R { rest := c :: u } = (.fin 0, { rest := c :: u, failed := true }) :=
    num_of_noNumber ⟨[], c :: u, rfl, by simp [Blank], Or.inr ⟨c, u, rfl, h0⟩, hr⟩
  rw [parseAll_eq, if_pos good_append]
  simp [parseStep, peekc_of hw h0, good_of_solid, h1, h2, h3, h4, parseMean, hn]

/-- A bracket that is not followed by `number , number` and its own closing bracket. -/
inductive BadRange (R : Reader) (b : Bracket) : Str → Prop
  | noMin {t} : NoNumber R t → BadRange R b t
  | noComma {t lo r} : Number R t lo r → r.head? ≠ some ',' → BadRange R b t
  | noMax {t lo t'} : Number R t lo (',' :: t') → NoNumber R t' → BadRange R b t
  | badClose {t lo t' hi r} : Number R t lo (',' :: t') → Number R t' hi r → r.head? ≠ some b.closing → BadRange R b t

/-- C03: an incomplete, unreadable or mismatched range is rejected. -/
theorem C03_bad_range (R : Reader) (name : Str) (o : ParOptions) (s w t : Str) (b : Bracket) (items : List Item)
    (hs : Lexes R s items (w ++ b.opening :: t)) (hw : Blank w) (hb : BadRange R b t) :
    ParInfo.parse R name { str := s } o = .err := by
  refine parse_err_of_items hs fun p _ => ?_
  have hb1 : b.opening ≠ '~' := by cases b <;> decide
  have hb' : b.opening = '[' ∨ b.opening = '<' ∨ b.opening = '(' := by cases b <;> decide
  rw [parseAll_eq, if_pos good_append]
  simp only [parseStep, peekc_of hw (bracket_notws b), good_of_solid, if_true, hb1, if_false, hb', parseRange]
  have g : ∀ {r : Str} {c : Char}, c ≠ '\x00' → r.head? ≠ some c → (CS.getc { rest := r }).1 ≠ c := by
    intro r c h0 h
    cases r with
    | nil => simpa [CS.getc] using fun h => h0 h.symm
    | cons a r => simpa [CS.getc] using h
  cases hb with
  | noMin h => simp [CS.getc, num_of_noNumber h]
  | noComma h h' =>
    have := g (c := ',') (by decide) h'
    simp only [show CS.getc { rest := b.opening :: t } = (b.opening, { rest := t }) from rfl, num_of_number h, errIf_bind]
    simp [this]
  | noMax h h' => simp [CS.getc, num_of_number h, num_of_noNumber h']
  | badClose h h' hc =>
    have h2 := g (c := b.closing) (by cases b <;> decide) hc
    rename_i lo t' hi r
    simp only [show CS.getc { rest := b.opening :: t } = (b.opening, { rest := t }) from rfl, num_of_number h,
      show CS.getc { rest := ',' :: t' } = (',', { rest := t' }) from rfl, num_of_number h', errIf_bind]
    cases b <;> simp [Bracket.opening, Bracket.closing] at h2 ⊢ <;> simp [h2]

/-- C03: an empty definition is rejected. -/
theorem C03_empty (R : Reader) (name : Str) (o : ParOptions) (s : Str) (hs : Blank s) (hl : o.lower ≠ .nan) : ParInfo.parse R name { str := s } o = .err := by
  rw [C02_notation_decoded R name o s s [] none none none .nil hs (by simp) (by simp)]
  have h1 : Dbl.eq o.lower o.lower = true := (Dbl.eq_self_iff _).2 hl
  simp [meaning, h1]

/-- C03: whatever the components and wherever they stand, if the mean is outside the range or `min >= max` the text is
rejected (`lo`, `hi` are the last range given). -/
theorem C03_bad_bounds (R : Reader) (name : Str) (o : ParOptions) (s r : Str) (a b : List Item) (br : Bracket) (m lo hi : Dbl)
    (hs : Lexes R s (a ++ .range br lo hi :: b) r) (hr : Blank r) (hb : ∀ i ∈ b, ∀ br' x y, i ≠ .range br' x y)
    (h : Dbl.le hi lo = true ∨ ((.mean m) ∈ a ++ b ∧ (Dbl.lt m lo = true ∨ Dbl.lt hi m = true))) :
    ParInfo.parse R name { str := s } o = .err := by
  rw [parse_text, parseAll_lexes hs]
  cases h1 : applyItems (PState.init o) (a ++ .range br lo hi :: b) with
  | err => rfl
  | ub => exact absurd h1 (applyItems_ne_ub _ _)
  | ok p =>
    rw [Res.ok_bind, parseAll_blank hr, Res.ok_bind]
    -- bounds at the end
    have bnd : ∀ (b : List Item) (q p : PState), (∀ i ∈ b, ∀ br' x y, i ≠ .range br' x y) → applyItems q b = .ok p →
        p.min = q.min ∧ p.max = q.max := by
      intro b
      induction b with
      | nil => intro q p _ h; simp [applyItems] at h; simp [h]
      | cons i b ih =>
        intro q p hb h
        rw [applyItems, Res.bind_eq_ok] at h
        obtain ⟨q', h2, h3⟩ := h
        have := ih q' p (fun j hj => hb j (by simp [hj])) h3
        cases i with
        | mean v => simp [applyItem] at h2; obtain ⟨_, rfl⟩ := h2; exact this
        | std v => simp [applyItem] at h2; obtain ⟨_, rfl⟩ := h2; exact this
        | range br' x y => exact absurd rfl (hb _ (by simp) br' x y)
    have hbounds : p.min = lo ∧ p.max = hi := by
      rw [applyItems_append, Res.bind_eq_ok] at h1
      obtain ⟨q, _, h2⟩ := h1
      rw [applyItems, Res.bind_eq_ok] at h2
      obtain ⟨q', h3, h4⟩ := h2
      simp only [applyItem, Res.ok.injEq] at h3
      have := bnd b q' p hb h4
      rw [← h3] at this; exact this
    -- the mean at the end
    have hmean : ∀ (l : List Item) (q p : PState), applyItems q l = .ok p →
        (.mean m) ∈ l → m ≠ .nan → p.mean = m := by
      have stay : ∀ (l : List Item) (q p : PState), applyItems q l = .ok p → q.mean.isNaN = false → p.mean = q.mean := by
        intro l
        induction l with
        | nil => intro q p h _; simp [applyItems] at h; simp [h]
        | cons i l ih =>
          intro q p h hq
          rw [applyItems, Res.bind_eq_ok] at h
          obtain ⟨q', h2, h3⟩ := h
          have hq' : q'.mean = q.mean := by
            cases i <;> simp [applyItem, hq] at h2
            · obtain ⟨_, rfl⟩ := h2; rfl
            · subst h2; rfl
          rw [ih q' p h3 (by rw [hq']; exact hq), hq']
      intro l
      induction l with
      | nil => intro q p _ h; simp at h
      | cons i l ih =>
        intro q p h hmem hmn
        rw [applyItems, Res.bind_eq_ok] at h
        obtain ⟨q', h2, h3⟩ := h
        rcases List.mem_cons.1 hmem with rfl | hmem
        · simp only [applyItem] at h2
          split at h2
          · cases h2
            exact stay l _ p h3 ((Dbl.isNaN_false_iff m).2 hmn)
          · cases h2
        · exact ih q' p h3 hmem hmn
    unfold finish
    simp only [errIf_bind, hbounds]
    rcases h with h | ⟨hmem, h⟩
    · simp [h]
    · have hmn : m ≠ .nan := by rcases h with h | h; exact Dbl.ne_nan_of_lt_left h; exact Dbl.ne_nan_of_lt_right h
      have : p.mean = m := hmean _ _ _ h1 (by
        rcases List.mem_append.1 hmem with h | h <;> simp [h]) hmn
      rw [this]
      rcases h with h | h <;> simp [h]

/-- C03, the exception: an unreadable number after `~` is not rejected but silently read as 0 (spot/par_info.cpp:45-48 does
not check `str.fail()`), and everything after it is ignored; here it turns a parameter into a constant. -/
theorem C03_unreadable_std_accepted :
    ParInfo.parse strtodReader "p".toList { str := "5~x".toList } .default =
      .ok ⟨"p".toList, .fin 5, .fin 0, .fin (-10 ^ 12), .fin (10 ^ 12)⟩ := by decide +kernel

/-- C03, the exception in general: after `mean` an unreadable std, whatever text follows, gives the constant `mean`. -/
theorem C03_unreadable_std_is_zero (R : Reader) (name : Str) (o : ParOptions) (s w t : Str) (m : Dbl)
    (hs : Lexes R s [.mean m] (w ++ '~' :: t)) (hw : Blank w) (ht : NoNumber R t)
    (h1 : Dbl.le o.lower m = true) (h2 : Dbl.le m o.upper = true) (h3 : Dbl.lt o.lower o.upper = true) :
    ParInfo.parse R name { str := s } o = .ok ⟨name, m, .fin 0, o.lower, o.upper⟩ := by
  have hmn := Dbl.ne_nan_of_le_right h1
  rw [parse_text, parseAll_lexes hs]
  have e1 : applyItems (PState.init o) [.mean m] = .ok { PState.init o with mean := m } := by
    simp [applyItems, applyItem, PState.init, Dbl.isNaN]
  have e2 : parseAll R { PState.init o with mean := m } { rest := w ++ '~' :: t } =
      .ok { PState.init o with mean := m, stdSet := true } := by
    rw [parseAll_eq, if_pos good_append]
    simp only [parseStep, peekc_of hw (show isWs '~' = false by decide), good_of_solid, if_true, parseStd, CS.getc,
      num_of_noNumber ht]
    have : Dbl.eq (PState.init o).std (.fin 0) = true := by simp [PState.init]
    rw [this, Bool.not_true, Res.errIf_false, Res.ok_bind, Res.ok_bind, parseAll_eq]
    rfl
  rw [e1, Res.ok_bind, e2, Res.ok_bind]
  have h := finish_parts name o (some m) (some (.fin 0)) none (by simpa using hmn)
  have hn : m.isNaN = false := (Dbl.isNaN_false_iff m).2 hmn
  have hl : Dbl.eq o.lower o.lower = true := (Dbl.eq_self_iff _).2 (Dbl.ne_nan_of_le_left h1)
  simpa [meaning, hl, proper, hn, h1, h2, h3, partsState, rgBounds, PState.init] using h

/-! Concrete cases meeting the hypotheses. -/

example : ParInfo.parse strtodReader "p".toList { str := "0.5 ~0.25[0,1]".toList } .default =
    .ok ⟨"p".toList, .fin (1/2), .fin (1/4), .fin 0, .fin 1⟩ := by
  refine C02_full strtodReader _ _ _ .square (.fin (1/2)) (.fin (1/4)) (.fin 0) (.fin 1) _ (List.Perm.refl _)
    (.cons (.mean (w := []) (c := '0') (u := ".5 ~0.25[0,1]".toList) (r := " ~0.25[0,1]".toList) ?_ ?_ ?_)
      (.cons (.std (w := " ".toList) (t := "0.25[0,1]".toList) (r := "[0,1]".toList) ?_
          ⟨[], _, rfl, ?_, ⟨'0', ".25[0,1]".toList, rfl, ?_⟩, ?_⟩)
        (.cons (.range (b := .square) (w := []) (t := "0,1]".toList) (t' := "1]".toList) (r := []) ?_
          ⟨[], _, rfl, ?_, ⟨'0', ",1]".toList, rfl, ?_⟩, ?_⟩ ⟨[], _, rfl, ?_, ⟨'1', "]".toList, rfl, ?_⟩, ?_⟩) .nil)))
    ?_ ?_ ?_ ?_ <;> first | (unfold Blank; decide) | (unfold MeanStart; decide) | decide +kernel

example : ParInfo.parse strtodReader "p".toList { str := "[-2,3]".toList } .default =
    .ok ⟨"p".toList, .fin (1/2), .fin (5/4), .fin (-2), .fin 3⟩ := by decide +kernel
example : ParInfo.parse strtodReader "p".toList { str := "~20".toList } .default =
    .ok ⟨"p".toList, .fin 20, .fin 2, .fin (-10^12), .fin (10^12)⟩ := by decide +kernel
example : ParInfo.parse strtodReader "p".toList { str := "~0".toList } .default = .err := by decide +kernel
example : ParInfo.parse strtodReader "p".toList { str := "1 2".toList } .default = .err := by decide +kernel
example : ParInfo.parse strtodReader "p".toList { str := "1~2~3".toList } .default = .err := by decide +kernel
example : ParInfo.parse strtodReader "p".toList { str := "1[0,2)".toList } .default = .err := by decide +kernel
example : ParInfo.parse strtodReader "p".toList { str := "3[0,2]".toList } .default = .err := by decide +kernel
example : ParInfo.parse strtodReader "p".toList { str := "".toList } .default = .err := by decide +kernel
example : BadRange strtodReader .square "0,2)".toList :=
  .badClose (lo := .fin 0) (hi := .fin 2) (t' := "2)".toList) (r := ")".toList)
    ⟨[], _, rfl, by simp [Blank], ⟨'0', ",2)".toList, rfl, by decide⟩, by decide +kernel⟩
    ⟨[], _, rfl, by simp [Blank], ⟨'2', ")".toList, rfl, by decide⟩, by decide +kernel⟩ (by decide)

end Spot
