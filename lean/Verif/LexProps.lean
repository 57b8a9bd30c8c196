import Verif.Lexer

/-!
# Properties of the lexer

The patterns get a meaning as sets of words, independent of how the scanner searches for them.
-/

namespace Dice

/-- The words a pattern stands for. -/
def Pat.Matches : Pat → List Char → Prop
  | .lit s, w => w = s
  | .ident, w => ∃ c cs, w = c :: cs ∧ isIdentStart c = true ∧ ∀ d ∈ cs, isIdentChar d = true
  | .integer, w => w ≠ [] ∧ ∀ d ∈ w, isDigitChar d = true
  | .float, w => ∃ a b, w = a ++ '.' :: b ∧ a ≠ [] ∧ b ≠ [] ∧ (∀ d ∈ a, isDigitChar d = true) ∧
      ∀ d ∈ b, isDigitChar d = true
  | .blank, w => w ≠ [] ∧ ∀ d ∈ w, isBlank d = true
  | .comment, w => ∃ b, w = '/' :: '/' :: b ∧ b ≠ [] ∧ ∀ d ∈ b, notNewline d = true

theorem takeWhile_all (p : Char → Bool) (cs : List Char) : ∀ d ∈ cs.takeWhile p, p d = true := by
  intro d h
  induction cs with
  | nil => simp at h
  | cons c cs ih =>
    simp only [List.takeWhile_cons] at h
    split at h
    · cases h with
      | head => assumption
      | tail _ h => exact ih h
    · simp at h

theorem takeWhile_take (p : Char → Bool) (cs : List Char) :
    cs.take (cs.takeWhile p).length = cs.takeWhile p := by
  induction cs with
  | nil => simp
  | cons c cs ih =>
    simp only [List.takeWhile_cons]
    split <;> simp [ih]

theorem takeWhile_le (p : Char → Bool) (cs : List Char) : (cs.takeWhile p).length ≤ cs.length := by
  induction cs with
  | nil => simp
  | cons c cs ih => simp only [List.takeWhile_cons]; split <;> simp [ih]

theorem takeWhile_longest (p : Char → Bool) (w r : List Char) (h : ∀ d ∈ w, p d = true) :
    (w ++ r).takeWhile p = w ++ r.takeWhile p := by
  induction w with
  | nil => rfl
  | cons c w ih =>
    simp [List.takeWhile_cons, h c List.mem_cons_self,
      ih (fun d hd => h d (List.mem_cons_of_mem _ hd))]

theorem takeWhile_stop (p : Char → Bool) (w r : List Char) (c : Char) (h : ∀ d ∈ w, p d = true)
    (hc : p c = false) : (w ++ c :: r).takeWhile p = w := by
  rw [takeWhile_longest p w _ h]; simp [List.takeWhile_cons, hc]

theorem run_matches {p : Char → Bool} {cs : List Char} {n : Nat} (h : runLength p cs = some n) :
    cs.take n = cs.takeWhile p ∧ cs.takeWhile p ≠ [] ∧ n ≤ cs.length := by
  unfold runLength at h
  split at h
  · cases h
  · rename_i h0
    cases h
    exact ⟨takeWhile_take _ _, h0, takeWhile_le _ _⟩

theorem run_longest (p : Char → Bool) (w r : List Char) (h0 : w ≠ []) (h : ∀ d ∈ w, p d = true) :
    ∃ n, runLength p (w ++ r) = some n ∧ w.length ≤ n := by
  refine ⟨(w ++ r.takeWhile p).length, ?_, by simp⟩
  unfold runLength
  rw [takeWhile_longest p w r h]
  simp [h0]

/-- What the search for a pattern finds is a word of the pattern. -/
theorem longest_matches {p : Pat} {cs : List Char} {n : Nat} (h : p.longest cs = some n) :
    p.Matches (cs.take n) ∧ n ≤ cs.length := by
  cases p with
  | lit s =>
    simp only [Pat.longest] at h
    split at h
    · rename_i hp
      obtain ⟨r, rfl⟩ := List.isPrefixOf_iff_prefix.1 hp
      cases h
      simp [Pat.Matches]
    · cases h
  | ident =>
    cases cs with
    | nil => simp [Pat.longest] at h
    | cons c cs =>
      simp only [Pat.longest] at h
      split at h
      · rename_i hc
        cases h
        refine ⟨⟨c, cs.takeWhile isIdentChar, by simp [takeWhile_take], hc, takeWhile_all _ _⟩, ?_⟩
        simp [takeWhile_le]
      · cases h
  | integer =>
    obtain ⟨h1, h2, h3⟩ := run_matches h
    simp only [Pat.Matches, h1]
    exact ⟨⟨h2, takeWhile_all _ _⟩, h3⟩
  | float =>
    simp only [Pat.longest] at h
    split at h
    · cases h
    · rename_i n' hn
      obtain ⟨h1, h2, h3⟩ := run_matches hn
      split at h
      · rename_i rest hr
        obtain ⟨m, hm, rfl⟩ := Option.map_eq_some_iff.1 h
        obtain ⟨h4, h5, h6⟩ := run_matches hm
        have hcs : cs = cs.takeWhile isDigitChar ++ '.' :: rest := by
          rw [← hr, ← h1]; simp
        have hlen : (cs.takeWhile isDigitChar).length = n' := by rw [← h1]; simp; omega
        refine ⟨⟨cs.takeWhile isDigitChar, rest.takeWhile isDigitChar, ?_, h2, h5, takeWhile_all _ _,
          takeWhile_all _ _⟩, ?_⟩
        · conv => lhs; rw [hcs]
          rw [List.take_append, hlen]
          have : n' + 1 + m - n' = m + 1 := by omega
          rw [this, List.take_of_length_le (by omega), List.take_succ_cons, h4]
        · have := congrArg List.length hcs
          simp [hlen] at this
          omega
      · cases h
  | blank =>
    obtain ⟨h1, h2, h3⟩ := run_matches h
    simp only [Pat.Matches, h1]
    exact ⟨⟨h2, takeWhile_all _ _⟩, h3⟩
  | comment =>
    unfold Pat.longest at h
    split at h <;> first | contradiction | skip
    rename_i rest _
    obtain ⟨m, hm, rfl⟩ := Option.map_eq_some_iff.1 h
    obtain ⟨h4, h5, h6⟩ := run_matches hm
    refine ⟨⟨rest.takeWhile notNewline, ?_, h5, takeWhile_all _ _⟩, ?_⟩
    · have : 2 + m = m + 1 + 1 := by omega
      rw [this, List.take_succ_cons, List.take_succ_cons, h4]
    · simp; omega

theorem isDigitChar_dot : isDigitChar '.' = false := by decide

/-- No word of the pattern at the front of the text is longer than what the search finds. -/
theorem longest_is_longest {p : Pat} {w r : List Char} (h : p.Matches w) :
    ∃ n, p.longest (w ++ r) = some n ∧ w.length ≤ n := by
  cases p with
  | lit s =>
    cases h
    exact ⟨w.length, by simp [Pat.longest], Nat.le_refl _⟩
  | ident =>
    obtain ⟨c, cs, rfl, h1, h2⟩ := h
    refine ⟨((cs ++ r).takeWhile isIdentChar).length + 1, by simp [Pat.longest, h1], ?_⟩
    rw [takeWhile_longest _ _ _ h2]; simp
  | integer => exact run_longest _ _ _ h.1 h.2
  | float =>
    obtain ⟨a, b, rfl, h1, h2, h3, h4⟩ := h
    obtain ⟨m, hm, hl⟩ := run_longest isDigitChar b r h2 h4
    have ha : (a ++ '.' :: (b ++ r)).takeWhile isDigitChar = a := takeWhile_stop _ _ _ _ h3 isDigitChar_dot
    refine ⟨a.length + 1 + m, ?_, by simp; omega⟩
    simp only [Pat.longest, List.append_assoc, List.cons_append, runLength, ha, h1, if_false]
    simp only [List.drop_left]
    show Option.map _ (runLength isDigitChar (b ++ r)) = _
    rw [hm]; rfl
  | blank => exact run_longest _ _ _ h.1 h.2
  | comment =>
    obtain ⟨b, rfl, h1, h2⟩ := h
    obtain ⟨m, hm, hl⟩ := run_longest notNewline b r h1 h2
    refine ⟨2 + m, ?_, by simp; omega⟩
    simp only [Pat.longest, List.cons_append, hm, Option.map]

theorem longestMatch_none {cs : List Char} : ∀ {ps : List (Pat × Act)}, longestMatch cs ps = none →
    ∀ q ∈ ps, q.1.longest cs = none := by
  intro ps
  induction ps with
  | nil => intro _ q hq; cases hq
  | cons p ps ih =>
    intro h q hq
    obtain ⟨p, a⟩ := p
    simp only [longestMatch] at h
    split at h
    · cases hq with
      | head => assumption
      | tail _ hq => exact ih h q hq
    · cases h
    · split at h <;> cases h

/-- Whoever wins is in the list, found its text, nobody found more, and everybody before it in the list
found less. -/
theorem longestMatch_some {cs : List Char} {n : Nat} {a : Act} : ∀ {ps : List (Pat × Act)},
    longestMatch cs ps = some (n, a) →
    ∃ p front back, ps = front ++ (p, a) :: back ∧ p.longest cs = some n ∧
      (∀ q ∈ front, ∀ m, q.1.longest cs = some m → m < n) ∧
      (∀ q ∈ back, ∀ m, q.1.longest cs = some m → m ≤ n) := by
  intro ps
  induction ps generalizing n a with
  | nil => intro h; cases h
  | cons p ps ih =>
    intro h
    obtain ⟨p, b⟩ := p
    simp only [longestMatch] at h
    split at h
    · rename_i hp
      obtain ⟨q, front, back, rfl, h1, h2, h3⟩ := ih h
      refine ⟨q, (p, b) :: front, back, rfl, h1, ?_, h3⟩
      intro q' hq' m hm
      cases hq' with
      | head => rw [hp] at hm; cases hm
      | tail _ hq' => exact h2 q' hq' m hm
    · rename_i hp hn
      cases h
      refine ⟨p, [], ps, rfl, hp, by simp, ?_⟩
      intro q hq m hm
      rw [longestMatch_none hn q hq] at hm; cases hm
    · rename_i k m' b' hp hm'
      split at h
      · rename_i hlt
        cases h
        obtain ⟨q, front, back, rfl, h1, h2, h3⟩ := ih hm'
        refine ⟨q, (p, b) :: front, back, rfl, h1, ?_, h3⟩
        intro q' hq' m hm
        cases hq' with
        | head => rw [hp] at hm; cases hm; exact hlt
        | tail _ hq' => exact h2 q' hq' m hm
      · rename_i hlt
        cases h
        obtain ⟨q, front, back, rfl, h1, h2, h3⟩ := ih hm'
        refine ⟨p, [], _, rfl, hp, by simp, ?_⟩
        intro q' hq' m hm
        rcases List.mem_append.1 hq' with hq' | hq'
        · have := h2 q' hq' m hm; omega
        · cases hq' with
          | head => rw [h1] at hm; cases hm; omega
          | tail _ hq' => have := h3 q' hq' m hm; omega

/-! ## Strings -/

/-- The escapes of the language and what they stand for. -/
def escapes : List (Char × Char) := [('"', '"'), ('\\', '\\'), ('n', '\n'), ('r', '\r'), ('t', '\t')]

/-- `Denotes body value`: the text between the quotes of a string literal and the string it stands for.
Every backslash starts one of the escapes, and no other character is a quote. -/
inductive Denotes : List Char → List Char → Prop where
  | nil : Denotes [] []
  | plain {c : Char} {body value : List Char} : c ≠ '"' → c ≠ '\\' → Denotes body value →
      Denotes (c :: body) (c :: value)
  | escape {c d : Char} {body value : List Char} : (c, d) ∈ escapes → Denotes body value →
      Denotes ('\\' :: c :: body) (d :: value)

theorem lexString_closed {cs : List Char} {n : Nat} (h : lexString cs = .closed n) :
    ∃ body r value, cs = body ++ '"' :: r ∧ Denotes body value ∧ n = body.length + 1 := by
  induction cs using lexString.induct generalizing n with
  | case1 => simp [lexString] at h
  | case2 r => simp only [lexString] at h; cases h; exact ⟨[], r, [], rfl, .nil, rfl⟩
  | case3 => simp [lexString] at h
  | case4 c cs hc m hm ih =>
    simp only [lexString, hc, if_true, hm] at h
    cases h
    obtain ⟨body, r, value, rfl, hd, rfl⟩ := ih hm
    have : ∃ d, (c, d) ∈ escapes := by
      rcases hc with rfl | rfl | rfl | rfl | rfl <;> simp [escapes]
    obtain ⟨d, hcd⟩ := this
    exact ⟨'\\' :: c :: body, r, d :: value, rfl, .escape hcd hd, rfl⟩
  | case5 c cs hc hm ih =>
    simp only [lexString, hc, if_true] at h
    exact absurd h (hm n)
  | case6 c cs hc => simp [lexString, hc] at h
  | case7 c cs h1 h2 h3 m hm ih =>
    rw [lexString] at h
    · rw [hm] at h; cases h
      obtain ⟨body, r, value, rfl, hd, rfl⟩ := ih hm
      refine ⟨c :: body, r, c :: value, rfl, .plain ?_ ?_ hd, rfl⟩
      · rintro rfl; exact h1 rfl
      · rintro rfl
        cases body with
        | nil => exact h3 _ _ rfl rfl
        | cons b body => exact h3 _ _ rfl rfl
    all_goals assumption
  | case8 c cs h1 h2 h3 hm ih =>
    rw [lexString] at h
    · split at h
      · rename_i m hm'; exact absurd hm' (hm m)
      · exact absurd h (hm n)
    all_goals assumption

theorem escape_iff (c : Char) :
    (c = '"' ∨ c = '\\' ∨ c = 'n' ∨ c = 'r' ∨ c = 't') ↔ ∃ d, (c, d) ∈ escapes := by
  simp only [escapes, List.mem_cons, Prod.mk.injEq, List.not_mem_nil, or_false]
  constructor
  · rintro (rfl | rfl | rfl | rfl | rfl) <;> simp
  · rintro ⟨d, ⟨h, _⟩ | ⟨h, _⟩ | ⟨h, _⟩ | ⟨h, _⟩ | ⟨h, _⟩⟩ <;> simp [h]

theorem lexString_open {cs : List Char} (h : lexString cs = .open_) : ∃ value, Denotes cs value := by
  induction cs using lexString.induct with
  | case1 => exact ⟨[], .nil⟩
  | case2 r => simp [lexString] at h
  | case3 => simp [lexString] at h
  | case4 c cs hc m hm ih => simp [lexString, hc, hm] at h
  | case5 c cs hc hm ih =>
    simp only [lexString, hc, if_true] at h
    obtain ⟨v, hv⟩ := ih h
    obtain ⟨d, hd⟩ := (escape_iff c).1 hc
    exact ⟨d :: v, .escape hd hv⟩
  | case6 c cs hc => simp [lexString, hc] at h
  | case7 c cs h1 h2 h3 m hm ih =>
    rw [lexString] at h
    · rw [hm] at h; cases h
    all_goals assumption
  | case8 c cs h1 h2 h3 hm ih =>
    rw [lexString] at h
    · split at h
      · cases h
      · obtain ⟨v, hv⟩ := ih h
        refine ⟨c :: v, .plain ?_ ?_ hv⟩
        · rintro rfl; exact h1 rfl
        · rintro rfl
          cases cs with
          | nil => exact h2 rfl rfl
          | cons b cs => exact h3 _ _ rfl rfl
    all_goals assumption

theorem lexString_bad {cs : List Char} {e : LexErr} (h : lexString cs = .bad e) :
    (∃ body value c r, cs = body ++ '\\' :: c :: r ∧ e = .invalidEscape c ∧ Denotes body value ∧
      ∀ d, (c, d) ∉ escapes) ∨
    (∃ body value, cs = body ++ ['\\'] ∧ e = .unterminated ∧ Denotes body value) := by
  induction cs using lexString.induct with
  | case1 => simp [lexString] at h
  | case2 r => simp [lexString] at h
  | case3 => simp only [lexString] at h; cases h; exact .inr ⟨[], [], rfl, rfl, .nil⟩
  | case4 c cs hc m hm ih => simp [lexString, hc, hm] at h
  | case5 c cs hc hm ih =>
    simp only [lexString, hc, if_true] at h
    obtain ⟨d, hd⟩ := (escape_iff c).1 hc
    rcases ih h with ⟨body, value, c', r, rfl, rfl, h2, h3⟩ | ⟨body, value, rfl, rfl, h2⟩
    · exact .inl ⟨'\\' :: c :: body, d :: value, c', r, rfl, rfl, .escape hd h2, h3⟩
    · exact .inr ⟨'\\' :: c :: body, d :: value, rfl, rfl, .escape hd h2⟩
  | case6 c cs hc =>
    simp only [lexString, hc, if_false] at h
    cases h
    exact .inl ⟨[], [], c, cs, rfl, rfl, .nil, fun d hd => hc ((escape_iff c).2 ⟨d, hd⟩)⟩
  | case7 c cs h1 h2 h3 m hm ih =>
    rw [lexString] at h
    · rw [hm] at h; cases h
    all_goals assumption
  | case8 c cs h1 h2 h3 hm ih =>
    rw [lexString] at h
    · split at h
      · cases h
      · have hq : c ≠ '"' := by rintro rfl; exact h1 rfl
        have hb : c ≠ '\\' := by
          rintro rfl
          cases cs with
          | nil => exact h2 rfl rfl
          | cons b cs => exact h3 _ _ rfl rfl
        rcases ih h with ⟨body, value, c', r, rfl, rfl, h2, h3⟩ | ⟨body, value, rfl, rfl, h2⟩
        · exact .inl ⟨c :: body, c :: value, c', r, rfl, rfl, .plain hq hb h2, h3⟩
        · exact .inr ⟨c :: body, c :: value, rfl, rfl, .plain hq hb h2⟩
    all_goals assumption

theorem lexString_body {body value : List Char} (h : Denotes body value) (r : List Char) :
    lexString (body ++ '"' :: r) = .closed (body.length + 1) := by
  induction h with
  | nil => rfl
  | @plain c body value h1 h2 _ ih =>
    rw [List.cons_append, lexString]
    · rw [ih]; rfl
    all_goals first | (intro h; exact h1 h) | (intro h; exact absurd h h2) | (intro _ h; exact absurd h h2) | (intro _ _ h; exact absurd h h2)
  | @escape c d body value h1 _ ih =>
    have hc : c = '"' ∨ c = '\\' ∨ c = 'n' ∨ c = 'r' ∨ c = 't' := by
      simp only [escapes, List.mem_cons, Prod.mk.injEq, List.not_mem_nil, or_false] at h1
      rcases h1 with ⟨h, _⟩ | ⟨h, _⟩ | ⟨h, _⟩ | ⟨h, _⟩ | ⟨h, _⟩ <;> simp [h]
    rw [List.cons_append, List.cons_append, lexString, if_pos hc, ih]
    rfl

/-- **C42**: the text after an opening quote makes a string literal exactly when it has a closing quote before
which every backslash starts one of the escapes. -/
theorem string_accepted_iff (cs : List Char) (n : Nat) :
    lexString cs = .closed n ↔
      ∃ body value r, cs = body ++ '"' :: r ∧ Denotes body value ∧ n = body.length + 1 := by
  constructor
  · intro h
    obtain ⟨body, r, value, h1, h2, h3⟩ := lexString_closed h
    exact ⟨body, value, r, h1, h2, h3⟩
  · rintro ⟨body, value, r, rfl, h, rfl⟩
    exact lexString_body h r

example : lexString "a\\\"b\" rest".toList = .closed 5 ∧
    Denotes "a\\\"b".toList "a\"b".toList :=
  ⟨by decide +kernel, .plain (by decide) (by decide) (.escape (by decide) (.plain (by decide) (by decide) .nil))⟩

theorem lexBackslashArg_some {cs : List Char} {n : Nat} (h : lexBackslashArg cs = some n) :
    ∃ body r, cs = body ++ '\\' :: r ∧ '\\' ∉ body ∧ n = body.length + 1 := by
  induction cs using lexBackslashArg.induct generalizing n with
  | case1 => cases h
  | case2 r => cases h; exact ⟨[], r, rfl, by simp, rfl⟩
  | case3 c cs hc ih =>
    rw [lexBackslashArg] at h
    · obtain ⟨m, hm, rfl⟩ := Option.map_eq_some_iff.1 h
      obtain ⟨body, r, rfl, h1, rfl⟩ := ih hm
      refine ⟨c :: body, r, rfl, ?_, rfl⟩
      intro hmem
      cases hmem with
      | head => exact hc rfl
      | tail _ hmem => exact h1 hmem
    · exact hc

/-! ## One step of the scanner -/

theorem patterns_nonempty : ∀ q ∈ patterns, q.1 ≠ .lit [] := by decide +kernel

theorem matches_nonempty {q : Pat × Act} (hq : q ∈ patterns) {w : List Char} (h : q.1.Matches w) : w ≠ [] := by
  have := patterns_nonempty q hq
  obtain ⟨p, a⟩ := q
  dsimp only at h this
  cases p with
  | lit s => cases h; rintro rfl; exact this rfl
  | ident => obtain ⟨c, cs, rfl, _⟩ := h; simp
  | integer => exact h.1
  | float => obtain ⟨a, b, rfl, _⟩ := h; simp
  | blank => exact h.1
  | comment => obtain ⟨b, rfl, _⟩ := h; simp

/-- `Best w r p a`: the pattern `p` matches `w`, no pattern matches more of `w ++ r`, and no pattern with a
higher priority matches `w`. -/
def Best (w r : List Char) (p : Pat) (a : Act) : Prop :=
  p.Matches w ∧
  (∀ q ∈ patterns, ∀ v s, w ++ r = v ++ s → q.1.Matches v → v.length ≤ w.length) ∧
  ∃ front back, patterns = front ++ (p, a) :: back ∧ ∀ q ∈ front, ¬ q.1.Matches w

/-- What the scanner finds at a position of the text, told without saying how: a skipped stretch, a token or
an error of the length of `w`, when `w ++ r` is left of the text. -/
inductive Found : List Char → List Char → Option (Except LexErr Kind) → Prop where
  | skip {w r : List Char} {p : Pat} : Best w r p .skip → Found w r none
  | plain {w r : List Char} {p : Pat} {k : Kind} : Best w r p (.tok k) → Found w r (some (.ok k))
  | nothing {c : Char} {r : List Char} :
      (∀ q ∈ patterns, ∀ v s, c :: r = v ++ s → ¬ q.1.Matches v) → Found [c] r (some (.ok .error))
  | string {body value r : List Char} : Denotes body value →
      Found ('"' :: (body ++ ['"'])) r (some (.ok .string))
  | openString {r value : List Char} : Denotes r value → Found ['"'] r (some (.ok .error))
  | badEscape {body value r : List Char} {c : Char} : Denotes body value → (∀ d, (c, d) ∉ escapes) →
      Found ['"'] (body ++ '\\' :: c :: r) (some (.error (.invalidEscape c)))
  | openEscape {body value : List Char} : Denotes body value →
      Found ['"'] (body ++ ['\\']) (some (.error .unterminated))
  | backslash {body r : List Char} : '\\' ∉ body → Found ('\\' :: (body ++ ['\\'])) r (some (.ok .backslashArg))
  | openBackslash {r : List Char} : '\\' ∉ r → Found ['\\'] r (some (.ok .error))

theorem best_of_longestMatch {cs : List Char} {n : Nat} {a : Act} (h : longestMatch cs patterns = some (n, a)) :
    ∃ p, n ≤ cs.length ∧ 0 < n ∧ Best (cs.take n) (cs.drop n) p a ∧ (p, a) ∈ patterns := by
  obtain ⟨p, front, back, hps, h1, h2, h3⟩ := longestMatch_some h
  obtain ⟨hm, hn⟩ := longest_matches h1
  have hin : (p, a) ∈ patterns := by rw [hps]; simp
  have hpos : 0 < n := by
    have := matches_nonempty hin hm
    rcases Nat.eq_zero_or_pos n with rfl | h
    · exact absurd List.take_zero this
    · exact h
  refine ⟨p, hn, hpos, ⟨hm, ?_, front, back, hps, ?_⟩, hin⟩
  · intro q hq v s hv hq'
    rw [List.take_append_drop] at hv
    subst hv
    obtain ⟨k, hk, hl⟩ := longest_is_longest (r := s) hq'
    have : k ≤ n := by
      rw [hps] at hq
      rcases List.mem_append.1 hq with hq | hq
      · exact Nat.le_of_lt (h2 q hq k hk)
      · cases hq with
        | head => rw [h1] at hk; cases hk; exact Nat.le_refl _
        | tail _ hq => exact h3 q hq k hk
    rw [List.length_take]; omega
  · intro q hq hq'
    obtain ⟨k, hk, hl⟩ := longest_is_longest (r := cs.drop n) hq'
    rw [List.take_append_drop] at hk
    have := h2 q hq k hk
    rw [List.length_take] at hl
    omega

theorem patterns_callbacks : ∀ q ∈ patterns, (q.2 = .lexString → q.1 = .lit ['"']) ∧
    (q.2 = .lexBackslashArg → q.1 = .lit ['\\']) := by decide +kernel

theorem lexBackslashArg_none {cs : List Char} (h : lexBackslashArg cs = none) : '\\' ∉ cs := by
  induction cs using lexBackslashArg.induct with
  | case1 => simp
  | case2 r => cases h
  | case3 c cs hc ih =>
    rw [lexBackslashArg] at h
    · intro hmem
      cases hmem with
      | head => exact hc rfl
      | tail _ hmem => exact ih (Option.map_eq_none_iff.1 h) hmem
    · exact hc

theorem take_add_drop {cs x : List Char} {n m : Nat} (h : cs.take n = x) (hn : x.length = n) {b r : List Char}
    (h' : cs.drop n = b ++ r) (hm : b.length = m) : cs.take (n + m) = x ++ b ∧ cs.drop (n + m) = r := by
  have hcs : cs = x ++ (b ++ r) := by rw [← h, ← h', List.take_append_drop]
  rw [hcs, ← hn, ← hm]
  refine ⟨?_, ?_⟩
  · rw [← List.append_assoc, ← List.length_append, List.take_left]
  · rw [← List.append_assoc, ← List.length_append, List.drop_left]

/-- One step of the scanner finds what `Found` describes and consumes that much of the text. -/
theorem scan_found {cs : List Char} (h0 : cs ≠ []) :
    Found (cs.take (scan cs).length) (cs.drop (scan cs).length) (scan cs).item ∧
      0 < (scan cs).length ∧ (scan cs).length ≤ cs.length := by
  unfold scan
  split
  · rename_i hnone
    cases cs with
    | nil => exact absurd rfl h0
    | cons c r =>
      refine ⟨.nothing ?_, Nat.one_pos, by simp⟩
      intro q hq v s hv hm
      have := longestMatch_none hnone q hq
      rw [List.drop_succ_cons, List.drop_zero] at hv
      rw [hv] at this
      obtain ⟨k, hk, _⟩ := longest_is_longest (r := s) hm
      rw [this] at hk; cases hk
  · rename_i n k hsome
    obtain ⟨p, hn, hpos, hbest, hmem⟩ := best_of_longestMatch hsome
    exact ⟨.plain hbest, hpos, hn⟩
  · rename_i n hsome
    obtain ⟨p, hn, hpos, hbest, hmem⟩ := best_of_longestMatch hsome
    exact ⟨.skip hbest, hpos, hn⟩
  · rename_i n hsome
    obtain ⟨p, hn, hpos, hbest, hmem⟩ := best_of_longestMatch hsome
    have hp := (patterns_callbacks _ hmem).1 rfl
    dsimp only at hp
    subst hp
    have hw : cs.take n = ['"'] := hbest.1
    have hl : (['"'] : List Char).length = n := by rw [← hw, List.length_take]; omega
    split
    · rename_i m hm
      obtain ⟨body, value, r, h1, h2, rfl⟩ := (string_accepted_iff _ _).1 hm
      have h1' : cs.drop n = (body ++ ['"']) ++ r := by rw [h1]; simp
      obtain ⟨ht, hd⟩ := take_add_drop (m := body.length + 1) hw hl h1' (by simp)
      refine ⟨?_, Nat.lt_of_lt_of_le hpos (Nat.le_add_right _ _), ?_⟩
      · dsimp only
        rw [ht, hd]
        exact .string h2
      · have := congrArg List.length h1
        simp at this ⊢
        omega
    · rename_i e he
      refine ⟨?_, hpos, hn⟩
      dsimp only
      rw [hw]
      rcases lexString_bad he with ⟨body, value, c, r, h1, rfl, h2, h3⟩ | ⟨body, value, h1, rfl, h2⟩
      · rw [h1]; exact .badEscape h2 h3
      · rw [h1]; exact .openEscape h2
    · rename_i he
      refine ⟨?_, hpos, hn⟩
      dsimp only
      rw [hw]
      obtain ⟨value, hv⟩ := lexString_open he
      exact .openString hv
  · rename_i n hsome
    obtain ⟨p, hn, hpos, hbest, hmem⟩ := best_of_longestMatch hsome
    have hp := (patterns_callbacks _ hmem).2 rfl
    dsimp only at hp
    subst hp
    have hw : cs.take n = ['\\'] := hbest.1
    have hl : (['\\'] : List Char).length = n := by rw [← hw, List.length_take]; omega
    split
    · rename_i m hm
      obtain ⟨body, r, h1, h2, rfl⟩ := lexBackslashArg_some hm
      have h1' : cs.drop n = (body ++ ['\\']) ++ r := by rw [h1]; simp
      obtain ⟨ht, hd⟩ := take_add_drop (m := body.length + 1) hw hl h1' (by simp)
      refine ⟨?_, Nat.lt_of_lt_of_le hpos (Nat.le_add_right _ _), ?_⟩
      · dsimp only
        rw [ht, hd]
        exact .backslash h2
      · have := congrArg List.length h1
        simp at this ⊢
        omega
    · rename_i he
      refine ⟨?_, hpos, hn⟩
      dsimp only
      rw [hw]
      exact .openBackslash (lexBackslashArg_none he)

/-! ## The token stream -/

/-- The text between tokens: blanks and line comments. -/
inductive Gap : List Char → Prop where
  | nil : Gap []
  | blank {w r : List Char} : Pat.blank.Matches w → Gap r → Gap (w ++ r)
  | comment {w r : List Char} : Pat.comment.Matches w → Gap r → Gap (w ++ r)

/-- `Tiled pos cs ls`: the items `ls` cover the text `cs`, which starts at byte `pos`.  Before each item there
is a gap; the item covers a non-empty stretch of the text, has its byte span, is what the scanner should find
there given the text after it, and has the stretch as its text. -/
inductive Tiled : Nat → List Char → List Lexeme → Prop where
  | done {pos : Nat} {g : List Char} : Gap g → Tiled pos g []
  | item {pos : Nat} {g w r : List Char} {l : Lexeme} {ls : List Lexeme} : Gap g → w ≠ [] →
      l.start = pos + byteLength g → l.stop = l.start + byteLength w →
      Found w r (some (l.item.map (·.kind))) → (∀ t, l.item = .ok t → t.text = String.ofList w) →
      Tiled l.stop r ls → Tiled pos (g ++ (w ++ r)) (l :: ls)

theorem byteLength_append (a b : List Char) : byteLength (a ++ b) = byteLength a + byteLength b := by
  simp [byteLength]

theorem Tiled.skip {pos : Nat} {w r : List Char} {ls : List Lexeme}
    (hw : Pat.blank.Matches w ∨ Pat.comment.Matches w) (h : Tiled (pos + byteLength w) r ls) :
    Tiled pos (w ++ r) ls := by
  have gap : ∀ {g}, Gap g → Gap (w ++ g) := fun hg => hw.elim (fun h => .blank h hg) (fun h => .comment h hg)
  cases h with
  | done hg => exact .done (gap hg)
  | item hg h1 h2 h3 h4 h5 h6 =>
    rw [← List.append_assoc]
    refine .item (gap hg) h1 ?_ h3 h4 h5 h6
    rw [h2, byteLength_append]; omega

theorem patterns_skip : ∀ q ∈ patterns, q.2 = .skip → q.1 = .blank ∨ q.1 = .comment := by decide +kernel

theorem found_skip {w r : List Char} (h : Found w r none) : Pat.blank.Matches w ∨ Pat.comment.Matches w := by
  cases h with
  | @skip w r p h =>
    obtain ⟨h1, _, front, back, hps, _⟩ := h
    have := patterns_skip (p, .skip) (by rw [hps]; simp) rfl
    dsimp only at this
    rcases this with rfl | rfl
    · exact .inl h1
    · exact .inr h1

theorem tokens_tiled (n pos : Nat) (cs : List Char) (h : cs.length ≤ n) : Tiled pos cs (tokens n pos cs) := by
  induction n generalizing pos cs with
  | zero =>
    have : cs = [] := List.length_eq_zero_iff.1 (by omega)
    subst this
    exact .done .nil
  | succ n ih =>
    cases cs with
    | nil => exact .done .nil
    | cons c cs =>
      obtain ⟨h1, h2, h3⟩ := scan_found (cs := c :: cs) (by simp)
      have hrest := ih (pos + byteLength ((c :: cs).take (scan (c :: cs)).length))
        ((c :: cs).drop (scan (c :: cs)).length) (by rw [List.length_drop]; omega)
      have hne : (c :: cs).take (scan (c :: cs)).length ≠ [] := by
        intro h0
        have := congrArg List.length h0
        rw [List.length_take, List.length_nil] at this
        omega
      have hsplit : c :: cs = (c :: cs).take (scan (c :: cs)).length ++ (c :: cs).drop (scan (c :: cs)).length :=
        (List.take_append_drop _ _).symm
      unfold tokens
      dsimp only
      split
      · rename_i hi
        rw [hi] at h1
        conv => arg 2; rw [hsplit]
        exact .skip (found_skip h1) hrest
      · rename_i e hi
        rw [hi] at h1
        conv => arg 2; rw [hsplit]
        exact .item (g := []) .nil hne rfl rfl h1 (fun t ht => nomatch ht) hrest
      · rename_i k hi
        rw [hi] at h1
        conv => arg 2; rw [hsplit]
        exact .item (g := []) .nil hne rfl rfl h1 (fun t ht => by cases ht; rfl) hrest

/-- **C40**, **C41**: the items produced for a source tile it.  They cover it in order, between them there are
only blanks and line comments, each has the byte span and the text of the stretch it covers, and is the
longest match there. -/
theorem tokens_tile_source (source : List Char) : Tiled 0 source (tokenize source) :=
  tokens_tiled _ _ _ (Nat.le_refl _)

theorem utf8Size_ne (c : Char) : 0 < c.utf8Size := Char.utf8Size_pos c

theorem byteLength_pos {w : List Char} (h : w ≠ []) : 0 < byteLength w := by
  cases w with
  | nil => exact absurd rfl h
  | cons c w =>
    have := utf8Size_ne c
    simp only [byteLength, List.map_cons, List.sum_cons]
    omega

theorem Tiled.bounds {pos : Nat} {cs : List Char} {ls : List Lexeme} (h : Tiled pos cs ls) :
    (∀ l ∈ ls, pos ≤ l.start ∧ l.start < l.stop ∧ l.stop ≤ pos + byteLength cs) ∧
      ls.Pairwise (fun a b => a.stop ≤ b.start) := by
  induction h with
  | done hg => exact ⟨by simp, .nil⟩
  | @item pos g w r l ls hg h1 h2 h3 h4 h5 h6 ih =>
    have hp := byteLength_pos h1
    have hb : byteLength (g ++ (w ++ r)) = byteLength g + (byteLength w + byteLength r) := by
      rw [byteLength_append, byteLength_append]
    refine ⟨?_, .cons ?_ ih.2⟩
    · intro l' hl'
      cases hl' with
      | head => omega
      | tail _ hl' => have := ih.1 l' hl'; omega
    · intro l' hl'
      exact (ih.1 l' hl').1

/-- **C40**: the spans of the items are non-empty, inside the source, in order and disjoint. -/
theorem spans_ordered (source : List Char) :
    (∀ l ∈ tokenize source, l.start < l.stop ∧ l.stop ≤ byteLength source) ∧
      (tokenize source).Pairwise (fun a b => a.stop ≤ b.start) := by
  obtain ⟨h1, h2⟩ := (tokens_tile_source source).bounds
  refine ⟨fun l hl => ?_, h2⟩
  have := h1 l hl
  omega

/-- **C40**: the text of a token is the slice of the source at its span. -/
theorem Tiled.slice {pos : Nat} {cs : List Char} {ls : List Lexeme} (h : Tiled pos cs ls) :
    ∀ l ∈ ls, ∃ a w b, cs = a ++ (w ++ b) ∧ l.start = pos + byteLength a ∧ l.stop = l.start + byteLength w ∧
      ∀ t, l.item = .ok t → t.text = String.ofList w := by
  induction h with
  | done hg => simp
  | @item pos g w r l ls hg h1 h2 h3 h4 h5 h6 ih =>
    intro l' hl'
    cases hl' with
    | head => exact ⟨g, w, r, rfl, h2, h3, h5⟩
    | tail _ hl' =>
      obtain ⟨a, w', b, rfl, h7, h8, h9⟩ := ih l' hl'
      refine ⟨g ++ (w ++ a), w', b, by simp, ?_, h8, h9⟩
      rw [h7, byteLength_append, byteLength_append]; omega

theorem token_text_is_slice (source : List Char) : ∀ l ∈ tokenize source, ∃ a w b, source = a ++ (w ++ b) ∧
    l.start = byteLength a ∧ l.stop = byteLength a + byteLength w ∧
    ∀ t, l.item = .ok t → t.text = String.ofList w := by
  intro l hl
  obtain ⟨a, w, b, h1, h2, h3, h4⟩ := (tokens_tile_source source).slice l hl
  exact ⟨a, w, b, h1, by omega, by omega, h4⟩

example :
    (tokenize "a /*é*/ // x\n\"é\"".toList).map (fun l => (l.start, l.stop)) =
      [(0, 1), (2, 3), (3, 4), (4, 6), (6, 7), (7, 8), (14, 18)] := by decide +kernel

/-! ## Words -/

/-- The keywords of the language, reserved words included. -/
def keywords : List (String × Kind) :=
  [("or", .errorCoalesce), ("false", .false_), ("true", .true_), ("null", .null), ("if", .if_),
   ("else", .else_), ("while", .while_), ("loop", .loop), ("for", .for_), ("break", .break_),
   ("continue", .continue_), ("return", .return_), ("fn", .function), ("let", .let_), ("mut", .mut),
   ("in", .in_), ("op", .operator), ("class", .class_), ("is", .is), ("import", .import_), ("as", .as),
   ("from", .from_), ("export", .export), ("super", .super), ("await", .reserved), ("async", .reserved),
   ("yield", .reserved), ("do", .reserved), ("const", .reserved), ("match", .reserved),
   ("enum", .reserved), ("trait", .reserved), ("type", .reserved), ("try", .reserved),
   ("when", .reserved), ("default", .reserved), ("switch", .reserved)]

/-- The kind of a word: that of the keyword it equals, else an identifier. -/
def wordKind (w : List Char) : Kind :=
  ((keywords.find? fun k => k.1.toList == w).map (·.2)).getD .identifier

/-- Whether the text goes on with an identifier character. -/
def continuesWord : List Char → Bool
  | c :: _ => isIdentChar c
  | [] => false

/-- What the patterns starting with a letter or underscore are. -/
def patternIsWord (q : Pat × Act) : Bool :=
  match q.1 with
  | .lit (c :: s) => !isIdentStart c || (s.all isIdentChar && q.2 == .tok (wordKind (c :: s)))
  | .lit [] => false
  | _ => true

theorem patterns_words : ∀ q ∈ patterns, patternIsWord q = true := by decide +kernel

theorem ident_is_pattern : (Pat.ident, Act.tok .identifier) ∈ patterns := by decide +kernel

/-- Whether the row is the identifier pattern. -/
def notIdent (q : Pat × Act) : Bool := q.1 != .ident

theorem keywords_before_ident : ∀ k ∈ keywords,
    (Pat.lit k.1.toList, Act.tok k.2) ∈ patterns.takeWhile notIdent := by decide +kernel

theorem takeWhile_notIdent (front back : List (Pat × Act)) (a : Act) (h : ∀ q ∈ front, q.1 ≠ .ident) :
    (front ++ (Pat.ident, a) :: back).takeWhile notIdent = front := by
  induction front with
  | nil => rfl
  | cons q front ih =>
    have hq : notIdent q = true := by
      have := h q List.mem_cons_self
      simp [notIdent, this]
    rw [List.cons_append, List.takeWhile_cons, hq, if_pos rfl, ih fun q hq => h q (List.mem_cons_of_mem _ hq)]

theorem ident_action : ∀ q ∈ patterns, q.1 = .ident → q.2 = .tok .identifier := by decide +kernel

theorem isDigit_not_start : ∀ {c : Char}, isIdentStart c = true → isDigitChar c = false := by
  intro c h
  simp only [isIdentStart, isDigitChar, Bool.or_eq_true, Bool.and_eq_true, decide_eq_true_eq, beq_iff_eq,
    Bool.and_eq_false_iff, decide_eq_false_iff_not, Char.le_def] at h ⊢
  have e1 : ('_' : Char).val.toNat = 95 := rfl
  rcases h with (rfl | ⟨h1, h2⟩) | ⟨h1, h2⟩
  · right; decide
  · right
    intro h3
    have h4 := UInt32.le_trans h1 h3
    exact absurd h4 (by decide)
  · right
    intro h3
    have h4 := UInt32.le_trans h1 h3
    exact absurd h4 (by decide)

theorem isBlank_not_start {c : Char} (h : isIdentStart c = true) : isBlank c = false := by
  cases hb : isBlank c with
  | false => rfl
  | true =>
    simp only [isBlank, Bool.or_eq_true, beq_iff_eq] at hb
    rcases hb with (((rfl | rfl) | rfl) | rfl) | rfl <;> exact absurd h (by decide)

/-- A pattern that matches a text starting with a letter or underscore matches a word, and if it is not the
identifier pattern it is the literal of that word. -/
theorem word_pattern {p : Pat} {a : Act} (hp : (p, a) ∈ patterns) {c : Char} {s : List Char}
    (hc : isIdentStart c = true) (h : p.Matches (c :: s)) :
    (∀ d ∈ s, isIdentChar d = true) ∧ (p = .ident ∨ a = .tok (wordKind (c :: s))) := by
  cases p with
  | lit t =>
    cases h
    have := patterns_words _ hp
    simp only [patternIsWord, hc, Bool.not_true, Bool.false_or, Bool.and_eq_true, List.all_eq_true, beq_iff_eq] at this
    exact ⟨this.1, .inr this.2⟩
  | ident =>
    obtain ⟨c', cs, h1, h2, h3⟩ := h
    cases h1
    exact ⟨h3, .inl rfl⟩
  | integer =>
    have := h.2 c List.mem_cons_self
    rw [isDigit_not_start hc] at this; cases this
  | float =>
    obtain ⟨x, y, h1, h2, h3, h4, h5⟩ := h
    cases x with
    | nil => exact absurd rfl h2
    | cons x xs =>
      cases h1
      have := h4 c List.mem_cons_self
      rw [isDigit_not_start hc] at this; cases this
  | blank =>
    have := h.2 c List.mem_cons_self
    rw [isBlank_not_start hc] at this; cases this
  | comment =>
    obtain ⟨b, h1, h2⟩ := h
    cases h1
    exact absurd hc (by decide)

theorem wordKind_ident {w : List Char} (h : ∀ k ∈ keywords, k.1.toList ≠ w) : wordKind w = .identifier := by
  have : (keywords.find? fun k => k.1.toList == w) = none := by
    rw [List.find?_eq_none]
    intro k hk
    simpa using h k hk
  rw [wordKind, this]; rfl

/-! The characters of words, blanks and comments, by their ranges. -/

def Letter (c : Char) : Prop := c = '_' ∨ ('a' ≤ c ∧ c ≤ 'z') ∨ ('A' ≤ c ∧ c ≤ 'Z')

def Digit (c : Char) : Prop := '0' ≤ c ∧ c ≤ '9'

instance (c : Char) : Decidable (Letter c) := inferInstanceAs (Decidable (_ ∨ _))

instance (c : Char) : Decidable (Digit c) := inferInstanceAs (Decidable (_ ∧ _))

/-- The character classes of the patterns are these ranges. -/
theorem character_classes (c : Char) : (isIdentStart c = true ↔ Letter c) ∧ (isDigitChar c = true ↔ Digit c) ∧
    (isIdentChar c = true ↔ Letter c ∨ Digit c) ∧
    (isBlank c = true ↔ c = ' ' ∨ c = '\t' ∨ c = '\r' ∨ c = '\n' ∨ c = '\x0c') ∧
    (notNewline c = true ↔ c ≠ '\r' ∧ c ≠ '\n') := by
  simp [isIdentStart, isDigitChar, isIdentChar, isBlank, notNewline, Letter, Digit, or_assoc]

example : Letter 'q' ∧ Digit '7' ∧ isIdentChar '7' = true ∧ isIdentStart '7' = false := by
  decide +kernel

theorem word_scanned {c : Char} {s r : List Char} (hc : isIdentStart c = true)
    (hs : ∀ d ∈ s, isIdentChar d = true) (hr : continuesWord r = false) :
    scan (c :: s ++ r) = ⟨(c :: s).length, some (.ok (wordKind (c :: s)))⟩ := by
  have hw : Pat.ident.Matches (c :: s) := ⟨c, s, rfl, hc, hs⟩
  cases hm : longestMatch (c :: s ++ r) patterns with
  | none =>
    obtain ⟨n, hn, _⟩ := longest_is_longest (r := r) hw
    rw [longestMatch_none hm _ ident_is_pattern] at hn
    cases hn
  | some na =>
    obtain ⟨n, a⟩ := na
    obtain ⟨p, hn, hpos, ⟨h1, h2, front, back, hps, hfront⟩, hin⟩ := best_of_longestMatch hm
    have hle : (c :: s).length ≤ n := by
      have := h2 _ ident_is_pattern (c :: s) r (List.take_append_drop _ _) hw
      rw [List.length_take] at this
      omega
    obtain ⟨k, rfl⟩ : ∃ k, n = k + 1 := ⟨n - 1, by omega⟩
    have htake : (c :: s ++ r).take (k + 1) = c :: (s ++ r).take k := rfl
    rw [htake] at h1 hfront
    obtain ⟨h3, h4⟩ := word_pattern hin hc h1
    have hk : k = s.length := by
      rcases Nat.lt_or_ge s.length k with hlt | hge
      · exfalso
        cases r with
        | nil => simp at hn; omega
        | cons d r =>
          have hd : d ∈ (s ++ d :: r).take k := by
            rw [List.mem_take_iff_getElem]
            refine ⟨s.length, ?_, ?_⟩
            · simp; omega
            · simp
          have := h3 d hd
          rw [show isIdentChar d = false from hr] at this
          cases this
      · simp at hle; omega
    subst hk
    rw [List.take_left] at h1 hfront h4
    have hact : a = .tok (wordKind (c :: s)) := by
      rcases h4 with rfl | h4
      · have := ident_action _ hin rfl
        dsimp only at this
        rw [this, wordKind_ident]
        intro kw hkw heq
        have hmem := keywords_before_ident kw hkw
        rw [hps, takeWhile_notIdent] at hmem
        · exact hfront _ hmem heq.symm
        · rintro q hq hid
          exact hfront q hq (by rw [hid]; exact hw)
      · exact h4
    unfold scan
    rw [hm, hact]
    rfl

/-- **C41**: at any position of the text, a run of identifier characters that starts with a letter or an
underscore and is followed by something else is one token: the keyword it equals, or an identifier. -/
theorem word_is_one_token {c : Char} {s r : List Char} (hc : Letter c) (hs : ∀ d ∈ s, Letter d ∨ Digit d)
    (hr : ∀ d, r.head? = some d → ¬ (Letter d ∨ Digit d)) :
    scan (c :: s ++ r) = ⟨(c :: s).length, some (.ok (wordKind (c :: s)))⟩ := by
  refine word_scanned ((character_classes c).1.2 hc) (fun d hd => (character_classes d).2.2.1.2 (hs d hd)) ?_
  cases r with
  | nil => rfl
  | cons d r =>
    have := hr d rfl
    rw [← (character_classes d).2.2.1] at this
    exact Bool.eq_false_iff.2 this

example : scan "format for".toList = ⟨6, some (.ok .identifier)⟩ ∧
    scan "for mat".toList = ⟨3, some (.ok .for_)⟩ ∧ wordKind "for".toList = .for_ := by
  have ends {r : List Char} : ∀ d, (' ' :: r).head? = some d → ¬ (Letter d ∨ Digit d) := by
    intro d hd
    cases hd
    decide
  refine ⟨?_, ?_, by decide +kernel⟩
  · exact word_is_one_token (c := 'f') (s := "ormat".toList) (r := " for".toList) (by decide) (by decide +kernel) ends
  · exact word_is_one_token (c := 'f') (s := "or".toList) (r := " mat".toList) (by decide) (by decide +kernel) ends

/-- **C41**: an operator or any other token is never split: no pattern matches more of the text than the token
covers. -/
theorem token_is_longest {cs : List Char} {k : Kind} {n : Nat} (h : longestMatch cs patterns = some (n, .tok k)) :
    scan cs = ⟨n, some (.ok k)⟩ ∧ ∀ q ∈ patterns, ∀ v s, cs = v ++ s → q.1.Matches v → v.length ≤ n := by
  refine ⟨by unfold scan; rw [h], ?_⟩
  intro q hq v s hv hm
  obtain ⟨p, hn, hpos, ⟨h1, h2, _⟩, hin⟩ := best_of_longestMatch h
  have := h2 q hq v s (by rw [List.take_append_drop, hv]) hm
  rw [List.length_take] at this
  omega

example : scan "..=1".toList = ⟨3, some (.ok .rangeInclusive)⟩ :=
  (token_is_longest (by decide +kernel)).1

end Dice
