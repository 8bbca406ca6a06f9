import Verif.Model.ParInfo
import Verif.Spec.ParNotation
import Verif.Lemmas.Dbl

namespace Spot
open Notation

theorem skipWs_append {w u : Str} (hw : Blank w) (hu : u = [] ∨ StartsSolid u) : skipWs (w ++ u) = u := by
  induction w with
  | nil =>
    rcases hu with rfl | ⟨c, v, rfl, hc⟩
    · rfl
    · simp [skipWs, hc]
  | cons a w ih =>
    have ha : isWs a = true := hw a (by simp)
    have := ih (fun c hc => hw c (by simp [hc]))
    simpa [skipWs, ha] using this

theorem skipWs_append_solid {w u : Str} {c : Char} (hw : Blank w) (hc : isWs c = false) : skipWs (w ++ c :: u) = c :: u :=
  skipWs_append hw (Or.inr ⟨c, u, rfl, hc⟩)

theorem skipWs_blank {w : Str} (hw : Blank w) : skipWs w = [] := by
  simpa using skipWs_append (u := []) hw (Or.inl rfl)

theorem skipWs_length_le (s : Str) : (skipWs s).length ≤ s.length := by
  simpa [skipWs] using (List.dropWhile_suffix (l := s) isWs).length_le

theorem skipWs_idem (s : Str) : skipWs (skipWs s) = skipWs s := by
  induction s with
  | nil => rfl
  | cons a s ih =>
    by_cases h : isWs a = true
    · simpa [skipWs, h] using ih
    · simp [skipWs, h]

theorem rd_length {R : Reader} {s r : Str} {v : Dbl} (h : R.rd s = some (v, r)) : r.length < s.length := by
  obtain ⟨p, hp, rfl⟩ := R.consumes s v r h
  have : 0 < p.length := List.length_pos_iff.2 hp
  simp; omega

theorem num_length (R : Reader) (s : CS) : (s.num R).2.rest.length ≤ s.rest.length := by
  unfold CS.num
  split
  · simp
  · split
    · rename_i h
      have := rd_length h
      have := skipWs_length_le s.rest
      simp; omega
    · simp

theorem num_length_lt (R : Reader) (s : CS) (h : (s.num R).2.failed = false) :
    (s.num R).2.rest.length < s.rest.length := by
  unfold CS.num at *
  split
  · rename_i h1; simp [h1] at h
  · rename_i h1
    simp only [h1] at h
    split
    · rename_i h2
      have := rd_length h2
      have := skipWs_length_le s.rest
      simp; omega
    · rename_i h2; simp [h2] at h

theorem getc_length (s : CS) : s.getc.2.rest.length ≤ s.rest.length := by
  unfold CS.getc; split
  · simp
  · rename_i h; simp [h]

theorem getc_length_lt (s : CS) (h : s.rest ≠ []) : s.getc.2.rest.length < s.rest.length := by
  unfold CS.getc; split
  · contradiction
  · rename_i h; simp [h]

theorem num_of_number {R : Reader} {t r : Str} {v : Dbl} (h : Number R t v r) :
    CS.num R { rest := t } = (v, { rest := r }) := by
  obtain ⟨w, u, rfl, hw, hu, hr⟩ := h
  simp [CS.num, skipWs_append hw (Or.inr hu), hr]

theorem num_of_noNumber {R : Reader} {t : Str} (h : NoNumber R t) :
    CS.num R { rest := t } = (.fin 0, { rest := t, failed := true }) := by
  obtain ⟨w, u, rfl, hw, hu, hr⟩ := h
  simp [CS.num, skipWs_append hw hu, hr]

/-- One iteration of the loop. -/
def parseStep (R : Reader) (p : PState) (s : CS) : Res (PState × CS) :=
  let c := s.peekc.1
  let s := s.peekc.2
  if s.good then
    if c = '~' then parseStd R p s
    else if c = '[' ∨ c = '<' ∨ c = '(' then parseRange R c p s
    else parseMean R p s
  else .ok (p, s)

theorem parseLoop_succ (R : Reader) (n : Nat) (p : PState) (s : CS) :
    parseLoop R (n + 1) p s = if s.good then parseStep R p s >>= fun x => parseLoop R n x.1 x.2 else .ok p := by
  rw [parseLoop]
  split
  · simp only [parseStep]
    split
    · split
      · rfl
      · split <;> rfl
    · rfl
  · rfl

theorem peekc_rest_length (s : CS) : s.peekc.2.rest.length ≤ s.rest.length := skipWs_length_le _

theorem parseStep_length {R : Reader} {p : PState} {s : CS} (hs : s.good = true) {p' s'}
    (h : parseStep R p s = .ok (p', s')) : s'.rest.length < s.rest.length := by
  have hne : s.rest ≠ [] := by
    intro h0; simp [CS.good, h0] at hs
  have hpk := peekc_rest_length s
  unfold parseStep at h
  simp only at h
  split at h
  · rename_i hg
    have hne' : s.peekc.2.rest ≠ [] := by
      intro h0; simp [CS.good, h0] at hg
    split at h
    · unfold parseStd at h
      rw [Res.bind_eq_ok] at h
      obtain ⟨_, _, h⟩ := h
      simp only [Res.ok.injEq, Prod.mk.injEq] at h
      rw [← h.2]
      have h1 := getc_length_lt _ hne'
      have h2 := num_length R s.peekc.2.getc.2
      omega
    · split at h
      · unfold parseRange at h
        simp only [Res.bind_eq_ok, Res.ok.injEq, Prod.mk.injEq] at h
        obtain ⟨_, _, _, _, _, _, _, _, h⟩ := h
        rw [← h.2]
        have h1 := getc_length_lt _ hne'
        have h2 := num_length R s.peekc.2.getc.2
        have h3 := getc_length (s.peekc.2.getc.2.num R).2
        have h4 := num_length R (s.peekc.2.getc.2.num R).2.getc.2
        have h5 := getc_length ((s.peekc.2.getc.2.num R).2.getc.2.num R).2
        omega
      · unfold parseMean at h
        simp only [Res.bind_eq_ok, Res.errIf_eq_ok, Res.ok.injEq, Prod.mk.injEq] at h
        obtain ⟨_, h1, _, _, h⟩ := h
        rw [← h.2]
        have := num_length_lt R _ h1
        omega
  · rename_i hg
    simp only [Res.ok.injEq, Prod.mk.injEq] at h
    rw [← h.2]
    have : s.peekc.2.rest = [] := by
      have hf : s.failed = false := by simp [CS.good] at hs; exact hs.1
      have : s.peekc.2.failed = false := hf
      simpa [CS.good, this] using hg
    rw [this]
    have := List.length_pos_iff.2 hne
    simpa

theorem parseLoop_fuel (R : Reader) : ∀ (n m : Nat) (p : PState) (s : CS), s.rest.length < n → s.rest.length < m →
    parseLoop R n p s = parseLoop R m p s := by
  intro n
  induction n with
  | zero => intro m p s h; omega
  | succ n ih =>
    intro m p s hn hm
    cases m with
    | zero => omega
    | succ m =>
      rw [parseLoop_succ, parseLoop_succ]
      split
      · rename_i hg
        cases h : parseStep R p s with
        | ok x =>
          have := parseStep_length hg h
          simp only [Res.ok_bind]
          exact ih m x.1 x.2 (by omega) (by omega)
        | err => rfl
        | ub => rfl
      · rfl

/-- The loop run to its end. -/
def parseAll (R : Reader) (p : PState) (s : CS) : Res PState := parseLoop R (s.rest.length + 1) p s

theorem parseAll_eq (R : Reader) (p : PState) (s : CS) :
    parseAll R p s = if s.good then parseStep R p s >>= fun x => parseAll R x.1 x.2 else .ok p := by
  unfold parseAll
  rw [parseLoop_succ]
  split
  · rename_i hg
    cases h : parseStep R p s with
    | ok x =>
      have := parseStep_length hg h
      simp only [Res.ok_bind]
      exact parseLoop_fuel R _ _ _ _ (by omega) (by omega)
    | err => rfl
    | ub => rfl
  · rfl

theorem parseStep_ne_ub (R : Reader) (p : PState) (s : CS) : parseStep R p s ≠ .ub := by
  unfold parseStep parseStd parseRange parseMean
  simp only
  have e : ∀ {b : Bool} {α : Type} {f : Unit → Res α}, (∀ u, f u ≠ .ub) → (Res.errIf b >>= f) ≠ .ub := by
    intro b α f hf; cases b <;> simp [hf]
  split
  · split
    · exact e (by simp)
    · split
      · exact e fun _ => e fun _ => e fun _ => e (by simp)
      · exact e fun _ => e (by simp)
  · simp

theorem parseAll_ne_ub (R : Reader) : ∀ (n : Nat) (p : PState) (s : CS), s.rest.length = n → parseAll R p s ≠ .ub := by
  intro n
  induction n using Nat.strong_induction_on with
  | _ n ih =>
    intro p s hn
    rw [parseAll_eq]
    split
    · rename_i hg
      cases h : parseStep R p s with
      | ok x => simpa using ih _ (hn ▸ parseStep_length hg h) x.1 x.2 rfl
      | err => simp
      | ub => exact absurd h (parseStep_ne_ub R p s)
    · simp

/-- Effect of one component on the parser's variables. -/
def applyItem (p : PState) : Item → Res PState
  | .mean v => if p.mean.isNaN then .ok { p with mean := v } else .err
  | .std v => if Dbl.eq p.std (.fin 0) then .ok { p with std := v, stdSet := true } else .err
  | .range _ lo hi => .ok { p with min := lo, max := hi }

theorem good_of_solid {t : Str} {c : Char} : CS.good { rest := c :: t } = true := rfl

theorem peekc_of {w : Str} {c : Char} {t : Str} (hw : Blank w) (hc : isWs c = false) :
    CS.peekc { rest := w ++ c :: t } = (c, { rest := c :: t }) := by
  simp [CS.peekc, skipWs_append_solid hw hc]

theorem good_append {w : Str} {c : Char} {t : Str} : CS.good { rest := w ++ c :: t } = true := by
  simp [CS.good]

theorem bracket_notws (b : Bracket) : isWs b.opening = false := by cases b <;> decide

theorem parseStep_lex1 {R : Reader} {s : Str} {i : Item} {r : Str} (h : Lex1 R s i r) (p : PState) :
    parseStep R p { rest := s } = applyItem p i >>= fun p' => .ok (p', { rest := r }) := by
  cases h with
  | @mean w c u v r hw hc hr =>
    obtain ⟨h0, h1, h2, h3, h4⟩ := hc
    have hn : CS.num R { rest := c :: u } = (v, { rest := r }) :=
      num_of_number ⟨[], c :: u, rfl, by simp [Blank], ⟨c, u, rfl, h0⟩, hr⟩
    simp only [parseStep, peekc_of hw h0, good_of_solid, if_true, h1, h2, h3, h4, if_false, or_self, parseMean, hn,
      applyItem, Res.errIf_false, Res.ok_bind]
    cases p.mean.isNaN <;> simp
  | @std w t v r hw hn =>
    have hn := num_of_number hn
    simp only [parseStep, peekc_of hw (show isWs '~' = false by decide), good_of_solid, if_true, parseStd, CS.getc, hn,
      applyItem]
    cases Dbl.eq p.std (.fin 0) <;> simp
  | @range w b t lo t' hi r hw h1 h2 =>
    have h1 := num_of_number h1
    have h2 := num_of_number h2
    have hb : b.opening ≠ '~' := by cases b <;> decide
    have hb' : b.opening = '[' ∨ b.opening = '<' ∨ b.opening = '(' := by cases b <;> decide
    simp only [parseStep, peekc_of hw (bracket_notws b), good_of_solid, if_true, hb, if_false, hb', parseRange, CS.getc, h1, h2,
      applyItem, Res.errIf_false, Res.ok_bind]
    cases b <;> simp [Bracket.opening, Bracket.closing]

theorem lex1_good {R : Reader} {s : Str} {i : Item} {r : Str} (h : Lex1 R s i r) : CS.good { rest := s } = true := by
  cases h <;> simp [CS.good]

/-- Effect of a list of components. -/
def applyItems (p : PState) : List Item → Res PState
  | [] => .ok p
  | i :: is => applyItem p i >>= fun p' => applyItems p' is

theorem parseAll_lexes {R : Reader} {s : Str} {is : List Item} {r : Str} (h : Lexes R s is r) (p : PState) :
    parseAll R p { rest := s } = applyItems p is >>= fun p' => parseAll R p' { rest := r } := by
  induction h generalizing p with
  | nil => rfl
  | @cons s i t is r h1 _ ih =>
    rw [parseAll_eq, if_pos (lex1_good h1), parseStep_lex1 h1, applyItems]
    cases applyItem p i with
    | ok p' => simp [ih]
    | err => rfl
    | ub => rfl

theorem parseAll_blank {R : Reader} {r : Str} (h : Blank r) (p : PState) : parseAll R p { rest := r } = .ok p := by
  rw [parseAll_eq]
  split
  · have : CS.peekc { rest := r } = ('\x00', { rest := [] }) := by simp [CS.peekc, skipWs_blank h]
    have e : parseStep R p { rest := r } = .ok (p, { rest := [] }) := by
      simp only [parseStep, this]; rfl
    rw [e, Res.ok_bind, parseAll_eq]; rfl
  · rfl

theorem applyItem_ne_ub (p : PState) (i : Item) : applyItem p i ≠ .ub := by
  cases i <;> simp [applyItem] <;> split <;> simp

theorem applyItems_ne_ub (p : PState) (is : List Item) : applyItems p is ≠ .ub := by
  induction is generalizing p with
  | nil => simp [applyItems]
  | cons i is ih =>
    rw [applyItems]
    cases h : applyItem p i with
    | ok p' => simpa using ih p'
    | err => simp
    | ub => exact absurd h (applyItem_ne_ub p i)

theorem applyItems_append (p : PState) (a b : List Item) :
    applyItems p (a ++ b) = applyItems p a >>= fun p' => applyItems p' b := by
  induction a generalizing p with
  | nil => rfl
  | cons i a ih =>
    rw [List.cons_append, applyItems, applyItems]
    cases applyItem p i with
    | ok p' => simp [ih]
    | err => rfl
    | ub => rfl

end Spot
