import Verif.Model.CharStream

/-!
# A concrete number reader (`strtod`, C library)

The decimal part of C11 7.22.1.3: optional sign, digits with an optional point, optional exponent; correctly rounded. Not
modelled: hexadecimal numbers, `inf`, `nan` (such texts are no number here). It instantiates the reader parameter of the model,
so that the theorems are not vacuous, and is what the file round-trip is proved with.
-/

namespace Spot

/-- `'0' … '9'`. -/
def isDig (c : Char) : Bool := '0' ≤ c && c ≤ '9'

/-- Value of a digit. -/
def digVal (c : Char) : ℕ := c.toNat - 48

/-- Value of a digit sequence. -/
def digitsVal (l : Str) : ℕ := l.foldl (fun a c => 10 * a + digVal c) 0

/-- Optional sign: (negative?, rest). -/
def readSign : Str → Bool × Str
  | '-' :: t => (true, t)
  | '+' :: t => (false, t)
  | s => (false, s)

/-- Optional fraction: digits after the point, rest. -/
def readFrac : Str → Str × Str
  | '.' :: t => (t.takeWhile isDig, t.dropWhile isDig)
  | s => ([], s)

/-- Digits of an exponent after its sign: exponent and rest, or nothing if there are no digits. -/
def readExpDigits (t : Str) : Option (ℤ × Str) :=
  let (neg, u) := readSign t
  let ds := u.takeWhile isDig
  if ds.isEmpty then none
  else some (if neg then -(digitsVal ds : ℤ) else digitsVal ds, u.dropWhile isDig)

/-- Optional exponent: value, rest. -/
def readExp (s : Str) : ℤ × Str :=
  match s with
  | c :: t => if c = 'e' ∨ c = 'E' then (readExpDigits t).getD (0, s) else (0, s)
  | [] => (0, [])

/-- `strtod` on decimal numbers. -/
def strtod (s : Str) : Option (Dbl × Str) :=
  let (neg, s1) := readSign s
  let ip := s1.takeWhile isDig
  let (fp, s3) := readFrac (s1.dropWhile isDig)
  if ip.isEmpty && fp.isEmpty then none
  else
    let (e, s4) := readExp s3
    let v : ℚ := digitsVal (ip ++ fp) * (10 : ℚ) ^ (e - fp.length)
    some (Dbl.ofQ (if neg then -v else v), s4)

theorem readSign_suffix (s : Str) : ∃ p, s = p ++ (readSign s).2 := by
  unfold readSign
  split
  · exact ⟨['-'], rfl⟩
  · exact ⟨['+'], rfl⟩
  · exact ⟨[], rfl⟩

theorem readFrac_suffix (s : Str) : ∃ p, s = p ++ (readFrac s).2 ∧ ((readFrac s).1 ≠ [] → p ≠ []) := by
  unfold readFrac
  split
  · rename_i t
    exact ⟨'.' :: t.takeWhile isDig, by simp, by simp⟩
  · exact ⟨[], rfl, by simp⟩

theorem readExp_suffix (s : Str) : ∃ p, s = p ++ (readExp s).2 := by
  unfold readExp
  split
  · rename_i c t
    split
    · unfold readExpDigits
      obtain ⟨p, hp⟩ := readSign_suffix t
      simp only
      split
      · exact ⟨[], rfl⟩
      · refine ⟨c :: p ++ (readSign t).2.takeWhile isDig, ?_⟩
        simp only [Option.getD_some, List.cons_append, List.append_assoc, List.takeWhile_append_dropWhile]
        rw [← hp]
    · exact ⟨[], rfl⟩
  · exact ⟨[], rfl⟩

theorem strtod_consumes (s : Str) (v : Dbl) (r : Str) (h : strtod s = some (v, r)) : ∃ p, p ≠ [] ∧ s = p ++ r := by
  unfold strtod at h
  simp only at h
  split at h
  · cases h
  · rename_i hne
    simp only [Option.some.injEq, Prod.mk.injEq] at h
    obtain ⟨p1, h1⟩ := readSign_suffix s
    obtain ⟨p2, h2, h2'⟩ := readFrac_suffix ((readSign s).2.dropWhile isDig)
    obtain ⟨p3, h3⟩ := readExp_suffix (readFrac ((readSign s).2.dropWhile isDig)).2
    refine ⟨p1 ++ (readSign s).2.takeWhile isDig ++ p2 ++ p3, ?_, ?_⟩
    · intro h0
      simp only [List.append_eq_nil_iff] at h0
      obtain ⟨⟨⟨_, h5⟩, h6⟩, _⟩ := h0
      simp only [h5, List.isEmpty_nil, Bool.true_and] at hne
      apply h2' ?_ h6
      intro h7
      simp [h7] at hne
    · rw [← h.2]
      simp only [List.append_assoc]
      rw [← h3, ← h2, List.takeWhile_append_dropWhile, ← h1]

/-- The concrete reader. -/
def strtodReader : Reader := ⟨strtod, strtod_consumes⟩

end Spot
