import Verif.LexProps

/-!
# Tokens written with blanks between them

Every token has a spelling, and a text that spells tokens one after the other, with blanks between them, is
split into those tokens.
-/

namespace Dice

/-- How tokens are spelled. -/
inductive Spelled : Token → Prop where
  | fixed (k : Kind) (s : String) : (Pat.lit s.toList, Act.tok k) ∈ patterns → Spelled ⟨k, s⟩
  | name (s : String) (c : Char) (cs : List Char) : s.toList = c :: cs → isIdentStart c = true →
      (∀ d ∈ cs, isIdentChar d = true) → (∀ k ∈ keywords, k.1 ≠ s) → Spelled ⟨.identifier, s⟩
  | integer (s : String) : s.toList ≠ [] → (∀ d ∈ s.toList, isDigitChar d = true) → Spelled ⟨.integer, s⟩
  | float (s : String) (a b : List Char) : s.toList = a ++ '.' :: b → a ≠ [] → b ≠ [] →
      (∀ d ∈ a, isDigitChar d = true) → (∀ d ∈ b, isDigitChar d = true) → Spelled ⟨.float, s⟩
  | string (s : String) (body value : List Char) : s.toList = '"' :: (body ++ ['"']) → Denotes body value →
      Spelled ⟨.string, s⟩
  | backslash (s : String) (body : List Char) : s.toList = '\\' :: (body ++ ['\\']) → '\\' ∉ body →
      Spelled ⟨.backslashArg, s⟩

/-- The text ends here or goes on with a blank. -/
def Ended : List Char → Prop
  | [] => True
  | b :: _ => isBlank b = true

theorem takeWhile_ended (p : Char → Bool) (hp : ∀ b, isBlank b = true → p b = false) (w : List Char)
    {r : List Char} (hr : Ended r) : (w ++ r).takeWhile p = w.takeWhile p := by
  induction w with
  | nil =>
    cases r with
    | nil => rfl
    | cons b r => simp [List.takeWhile_cons, hp b hr]
  | cons c w ih => simp only [List.cons_append, List.takeWhile_cons, ih]

theorem blank_cases {b : Char} (h : isBlank b = true) :
    b = ' ' ∨ b = '\t' ∨ b = '\r' ∨ b = '\n' ∨ b = '\x0c' := by
  simp only [isBlank, Bool.or_eq_true, beq_iff_eq] at h
  rcases h with (((rfl | rfl) | rfl) | rfl) | rfl <;> simp

theorem blank_not_digit (b : Char) (h : isBlank b = true) : isDigitChar b = false := by
  rcases blank_cases h with rfl | rfl | rfl | rfl | rfl <;> decide

theorem blank_not_ident (b : Char) (h : isBlank b = true) : isIdentChar b = false := by
  rcases blank_cases h with rfl | rfl | rfl | rfl | rfl <;> decide

theorem runLength_ended (p : Char → Bool) (hp : ∀ b, isBlank b = true → p b = false) (w : List Char)
    {r : List Char} (hr : Ended r) : runLength p (w ++ r) = runLength p w := by
  unfold runLength
  rw [takeWhile_ended p hp w hr]

theorem prefix_ended (s w : List Char) (hs : ∀ c ∈ s, isBlank c = false) {r : List Char} (hr : Ended r) :
    s.isPrefixOf (w ++ r) = s.isPrefixOf w := by
  induction s generalizing w with
  | nil => rfl
  | cons c s ih =>
    cases w with
    | nil =>
      cases r with
      | nil => rfl
      | cons b r =>
        have h1 := hs c List.mem_cons_self
        have : (c == b) = false := by
          rw [beq_eq_false_iff_ne]
          rintro rfl
          rw [show isBlank c = true from hr] at h1
          cases h1
        simp [List.isPrefixOf, this]
    | cons d w =>
      simp only [List.cons_append, List.isPrefixOf]
      rw [ih w fun c hc => hs c (List.mem_cons_of_mem _ hc)]

theorem runLength_le {p : Char → Bool} {cs : List Char} {n : Nat} (h : runLength p cs = some n) :
    n ≤ cs.length := by
  unfold runLength at h
  split at h
  · cases h
  · cases h; exact takeWhile_le p cs

theorem longest_comment_none {cs : List Char} (h : ∀ r, cs ≠ '/' :: '/' :: r) :
    Pat.comment.longest cs = none := by
  unfold Pat.longest
  split
  case h_7 => exact absurd rfl (h _)
  all_goals first | rfl | contradiction

theorem longest_float (cs : List Char) : Pat.float.longest cs =
    match runLength isDigitChar cs with
    | none => none
    | some n =>
      match cs.drop n with
      | '.' :: rest => (runLength isDigitChar rest).map (n + 1 + ·)
      | _ => none := by
  cases cs <;> rfl

/-- A blank ends every match but that of a comment or of blanks. -/
theorem longest_ended (p : Pat) (hp : ∀ s, p = .lit s → ∀ c ∈ s, isBlank c = false) (c : Char) (w : List Char)
    (hc : isBlank c = false) (hw : ¬['/', '/'].isPrefixOf (c :: w) = true) {r : List Char} (hr : Ended r) :
    p.longest (c :: w ++ r) = p.longest (c :: w) := by
  cases p with
  | lit s =>
    simp only [Pat.longest]
    rw [prefix_ended s (c :: w) (hp s rfl) hr]
  | ident =>
    simp only [Pat.longest, List.cons_append]
    rw [takeWhile_ended _ blank_not_ident w hr]
  | integer => exact runLength_ended _ blank_not_digit _ hr
  | float =>
    rw [longest_float, longest_float, runLength_ended _ blank_not_digit _ hr]
    cases h : runLength isDigitChar (c :: w) with
    | none => rfl
    | some n =>
      dsimp only
      have hn := runLength_le h
      rw [List.drop_append_of_le_length hn]
      cases h' : (c :: w).drop n with
      | nil =>
        cases r with
        | nil => rfl
        | cons b r =>
          rcases blank_cases hr with rfl | rfl | rfl | rfl | rfl <;> rfl
      | cons d v =>
        by_cases hd : d = '.'
        · subst hd
          simp only [List.cons_append]
          rw [runLength_ended _ blank_not_digit _ hr]
        · simp only [List.cons_append]
          split
          · next h => cases h; exact absurd rfl hd
          · split
            · next h => cases h; exact absurd rfl hd
            · rfl
  | blank =>
    simp [Pat.longest, runLength, List.takeWhile_cons, hc]
  | comment =>
    have h1 : Pat.comment.longest (c :: w) = none := by
      apply longest_comment_none
      rintro v e
      rw [e] at hw
      exact hw rfl
    rw [h1]
    apply longest_comment_none
    rintro v e
    cases w with
    | nil =>
      cases r with
      | nil => cases e
      | cons b r =>
        cases e
        exact absurd (show isBlank '/' = true from hr) (by decide)
    | cons d w =>
      cases e
      exact hw rfl

theorem longestMatch_congr {cs ds : List Char} : ∀ {ps : List (Pat × Act)},
    (∀ q ∈ ps, q.1.longest cs = q.1.longest ds) → longestMatch cs ps = longestMatch ds ps
  | [], _ => rfl
  | (p, a) :: ps, h => by
    unfold longestMatch
    rw [h (p, a) List.mem_cons_self, longestMatch_congr fun q hq => h q (List.mem_cons_of_mem _ hq)]

theorem longestMatch_filter {cs : List Char} (f : Pat × Act → Bool) : ∀ {ps : List (Pat × Act)},
    (∀ q ∈ ps, f q = false → q.1.longest cs = none) → longestMatch cs ps = longestMatch cs (ps.filter f)
  | [], _ => rfl
  | (p, a) :: ps, h => by
    have ih := longestMatch_filter f (ps := ps) fun q hq => h q (List.mem_cons_of_mem _ hq)
    rw [List.filter_cons]
    cases hf : f (p, a) with
    | false =>
      rw [if_neg (by decide), ← ih]
      conv => lhs; unfold longestMatch
      rw [h _ List.mem_cons_self hf]
    | true =>
      rw [if_pos rfl]
      conv => lhs; unfold longestMatch
      conv => rhs; unfold longestMatch
      rw [ih]

/-- Whether the row has no blank. -/
def noBlankPat (q : Pat × Act) : Bool :=
  match q.1 with
  | .lit s => s.all fun c => !isBlank c
  | _ => true

theorem patterns_noBlank : ∀ q ∈ patterns, noBlankPat q = true := by decide +kernel

/-- Whether a literal is found in its own text. -/
def litFound (q : Pat × Act) : Bool :=
  match q with
  | (.lit s, .tok k) => longestMatch s patterns == some (s.length, .tok k) && !['/', '/'].isPrefixOf s
  | _ => true

theorem patterns_litFound : ∀ q ∈ patterns, litFound q = true := by decide +kernel

/-- Whether the row matches only texts that start with a digit. -/
def digitPat (q : Pat × Act) : Bool := q.1 == .integer || q.1 == .float

theorem patterns_digit : patterns.filter digitPat = [(.integer, .tok .integer), (.float, .tok .float)] := by
  decide +kernel

/-- Whether the row can match a text that starts with `c`. -/
def startsWith (c : Char) (q : Pat × Act) : Bool :=
  match q.1 with
  | .lit s => s.head? == some c
  | .ident => isIdentStart c
  | .integer | .float => isDigitChar c
  | .blank => isBlank c
  | .comment => c == '/'

theorem longest_startsWith {q : Pat × Act} {c : Char} {cs : List Char} (hq : q ∈ patterns)
    (h : startsWith c q = false) : q.1.longest (c :: cs) = none := by
  have hne := patterns_nonempty q hq
  obtain ⟨p, a⟩ := q
  dsimp only at hne ⊢
  cases p with
  | lit s =>
    cases s with
    | nil => exact absurd rfl hne
    | cons d s =>
      have : (d == c) = false := by simpa [startsWith] using h
      simp [Pat.longest, List.isPrefixOf, this]
  | ident =>
    have : isIdentStart c = false := h
    simp [Pat.longest, this]
  | integer =>
    have : isDigitChar c = false := h
    simp [Pat.longest, runLength, List.takeWhile_cons, this]
  | float =>
    have : isDigitChar c = false := h
    simp [Pat.longest, runLength, List.takeWhile_cons, this]
  | blank =>
    have : isBlank c = false := h
    simp [Pat.longest, runLength, List.takeWhile_cons, this]
  | comment =>
    have : c ≠ '/' := by simpa [startsWith] using h
    apply longest_comment_none
    rintro r e
    cases e
    exact this rfl

theorem longestMatch_start (c : Char) (cs : List Char) :
    longestMatch (c :: cs) patterns = longestMatch (c :: cs) (patterns.filter (startsWith c)) :=
  longestMatch_filter _ fun _ hq h => longest_startsWith hq h

/-! ## One token -/

theorem scan_tok {cs : List Char} {n : Nat} {k : Kind} (h : longestMatch cs patterns = some (n, .tok k)) :
    scan cs = ⟨n, some (.ok k)⟩ := (token_is_longest h).1

theorem scan_fixed {k : Kind} {s : List Char} (h : (Pat.lit s, Act.tok k) ∈ patterns) {r : List Char}
    (hr : Ended r) : scan (s ++ r) = ⟨s.length, some (.ok k)⟩ := by
  have h1 := patterns_litFound _ h
  simp only [litFound, Bool.and_eq_true, beq_iff_eq, Bool.not_eq_true'] at h1
  have h2 := patterns_noBlank _ h
  simp only [noBlankPat, List.all_eq_true, Bool.not_eq_true'] at h2
  cases s with
  | nil => exact absurd rfl (patterns_nonempty _ h)
  | cons c w =>
    apply scan_tok
    rw [← h1.1]
    apply longestMatch_congr
    intro q hq
    refine longest_ended q.1 ?_ c w (h2 c List.mem_cons_self) (by rw [h1.2]; decide) hr
    intro s hs
    have := patterns_noBlank q hq
    simpa [noBlankPat, hs] using this

theorem longest_digit_none {q : Pat × Act} (hq : q ∈ patterns) {c : Char} {cs : List Char}
    (hc : isDigitChar c = true) (h : digitPat q = false) : q.1.longest (c :: cs) = none := by
  apply longest_startsWith hq
  have lits : ∀ q ∈ patterns, (match q.1 with | .lit (d :: _) => isDigitChar d | _ => false) = false := by
    decide +kernel
  have h1 := lits q hq
  obtain ⟨p, a⟩ := q
  cases p with
  | lit s =>
    cases s with
    | nil => rfl
    | cons d s =>
      simp only [startsWith, List.head?_cons]
      rw [beq_eq_false_iff_ne]
      rintro e
      cases e
      dsimp only at h1
      rw [hc] at h1
      cases h1
  | ident =>
    cases hs : isIdentStart c with
    | false => exact hs
    | true => rw [isDigit_not_start hs] at hc; cases hc
  | integer => cases h
  | float => cases h
  | blank =>
    cases hs : isBlank c with
    | false => exact hs
    | true => rw [blank_not_digit c hs] at hc; cases hc
  | comment =>
    show (c == '/') = false
    rw [beq_eq_false_iff_ne]
    rintro rfl
    exact absurd hc (by decide)

theorem runLength_all {p : Char → Bool} {w : List Char} (h0 : w ≠ []) (h : ∀ d ∈ w, p d = true)
    {r : List Char} (hr : ∀ c ∈ r.head?, p c = false) : runLength p (w ++ r) = some w.length := by
  have : (w ++ r).takeWhile p = w := by
    rw [takeWhile_longest p w r h]
    cases r with
    | nil => simp
    | cons c r => simp [List.takeWhile_cons, hr c (by simp)]
  unfold runLength
  rw [this, if_neg h0]

theorem ended_head {r : List Char} (hr : Ended r) {p : Char → Bool} (hp : ∀ b, isBlank b = true → p b = false) :
    ∀ c ∈ r.head?, p c = false := by
  cases r with
  | nil => intro c hc; cases hc
  | cons b r => intro c hc; cases hc; exact hp b hr

theorem scan_integer {s : List Char} (h0 : s ≠ []) (h : ∀ d ∈ s, isDigitChar d = true) {r : List Char}
    (hr : Ended r) : scan (s ++ r) = ⟨s.length, some (.ok .integer)⟩ := by
  have hrun := runLength_all h0 h (ended_head hr blank_not_digit)
  apply scan_tok
  cases s with
  | nil => exact absurd rfl h0
  | cons c s =>
    rw [List.cons_append, longestMatch_filter digitPat fun q hq hf =>
      longest_digit_none hq (h c List.mem_cons_self) hf, patterns_digit, ← List.cons_append]
    have hfl : Pat.float.longest (c :: s ++ r) = none := by
      rw [longest_float, hrun]
      dsimp only
      rw [List.drop_left]
      cases r with
      | nil => rfl
      | cons b r => rcases blank_cases hr with rfl | rfl | rfl | rfl | rfl <;> rfl
    have hint : Pat.integer.longest (c :: s ++ r) = some (c :: s).length := hrun
    simp only [longestMatch, hfl, hint]

theorem scan_float {a b : List Char} (ha : a ≠ []) (hb : b ≠ []) (ha' : ∀ d ∈ a, isDigitChar d = true)
    (hb' : ∀ d ∈ b, isDigitChar d = true) {r : List Char} (hr : Ended r) :
    scan (a ++ '.' :: b ++ r) = ⟨(a ++ '.' :: b).length, some (.ok .float)⟩ := by
  have hrun : runLength isDigitChar (a ++ '.' :: b ++ r) = some a.length := by
    rw [List.append_assoc]
    exact runLength_all ha ha' (by simp [isDigitChar_dot])
  have hfl : Pat.float.longest (a ++ '.' :: b ++ r) = some (a.length + 1 + b.length) := by
    rw [longest_float, hrun]
    dsimp only
    rw [List.append_assoc, List.drop_left, List.cons_append]
    show (runLength isDigitChar (b ++ r)).map _ = _
    rw [runLength_all hb hb' (ended_head hr blank_not_digit)]
    rfl
  have hint : Pat.integer.longest (a ++ '.' :: b ++ r) = some a.length := hrun
  apply scan_tok
  have hlen : (a ++ '.' :: b).length = a.length + 1 + b.length := by simp; omega
  rw [hlen]
  cases a with
  | nil => exact absurd rfl ha
  | cons c a =>
    rw [List.cons_append, List.cons_append, longestMatch_filter digitPat fun q hq hf =>
      longest_digit_none hq (ha' c List.mem_cons_self) hf, patterns_digit, ← List.cons_append, ← List.cons_append]
    simp only [longestMatch, hfl, hint]
    rw [if_pos (by omega)]

theorem scan_string {body value : List Char} (h : Denotes body value) (r : List Char) :
    scan ('"' :: (body ++ ['"']) ++ r) = ⟨('"' :: (body ++ ['"'])).length, some (.ok .string)⟩ := by
  have hm : longestMatch ('"' :: (body ++ ['"'] ++ r)) patterns = some (1, .lexString) := by
    rw [longestMatch_start, show patterns.filter (startsWith '"') = [(.lit ['"'], .lexString)] by decide +kernel]
    rfl
  have hl : lexString (body ++ ['"'] ++ r) = .closed (body.length + 1) := by
    rw [List.append_assoc]
    exact lexString_body h r
  unfold scan
  rw [List.cons_append, hm]
  simp only [List.drop_succ_cons, List.drop_zero, hl]
  simp
  omega

theorem lexBackslashArg_body {body : List Char} (h : '\\' ∉ body) (r : List Char) :
    lexBackslashArg (body ++ '\\' :: r) = some (body.length + 1) := by
  induction body with
  | nil => rfl
  | cons c body ih =>
    rw [List.cons_append, lexBackslashArg]
    · rw [ih fun hm => h (List.mem_cons_of_mem _ hm)]; rfl
    · rintro rfl; exact h List.mem_cons_self

theorem scan_backslash {body : List Char} (h : '\\' ∉ body) (r : List Char) :
    scan ('\\' :: (body ++ ['\\']) ++ r) = ⟨('\\' :: (body ++ ['\\'])).length, some (.ok .backslashArg)⟩ := by
  have hm : longestMatch ('\\' :: (body ++ ['\\'] ++ r)) patterns = some (1, .lexBackslashArg) := by
    rw [longestMatch_start,
      show patterns.filter (startsWith '\\') = [(.lit ['\\'], .lexBackslashArg)] by decide +kernel]
    rfl
  have hl : lexBackslashArg (body ++ ['\\'] ++ r) = some (body.length + 1) := by
    rw [List.append_assoc]
    exact lexBackslashArg_body h r
  unfold scan
  rw [List.cons_append, hm]
  simp only [List.drop_succ_cons, List.drop_zero, hl]
  simp
  omega

theorem scan_spelled {t : Token} (h : Spelled t) {r : List Char} (hr : Ended r) :
    scan (t.text.toList ++ r) = ⟨t.text.toList.length, some (.ok t.kind)⟩ := by
  cases h with
  | fixed k s h => exact scan_fixed h hr
  | name s c cs hs hc hcs hk =>
    dsimp only
    rw [hs]
    have hn : wordKind (c :: cs) = .identifier := wordKind_ident fun k hk' e => hk k hk' (by
      apply String.ext
      rw [e, hs])
    rw [word_scanned hc hcs (by
      cases r with
      | nil => rfl
      | cons b r => exact blank_not_ident b hr), hn]
  | integer s h0 h => exact scan_integer h0 h hr
  | float s a b hs ha hb ha' hb' =>
    dsimp only
    rw [hs]
    exact scan_float ha hb ha' hb' hr
  | string s body value hs hb =>
    dsimp only
    rw [hs]
    exact scan_string hb r
  | backslash s body hs hb =>
    dsimp only
    rw [hs]
    exact scan_backslash hb r

/-! ## Many tokens -/

/-- The line ends here. -/
def LineEnds : List Char → Prop
  | [] => True
  | c :: _ => c = '\r' ∨ c = '\n'

/-- The text spells the tokens, with blanks between them and perhaps before and after them.  After a blank and
at the start there may be a comment that is not empty. -/
inductive Spells : List Token → List Char → Prop where
  | nil : Spells [] []
  | last {t : Token} : Spelled t → Spells [t] t.text.toList
  | blank {b : Char} {ts : List Token} {cs : List Char} : isBlank b = true → Spells ts cs → Spells ts (b :: cs)
  | comment {body : List Char} {ts : List Token} {cs : List Char} : body ≠ [] →
      (∀ d ∈ body, d ≠ '\r' ∧ d ≠ '\n') → LineEnds cs → Spells ts cs → Spells ts ('/' :: '/' :: (body ++ cs))
  | cons {t : Token} {b : Char} {ts : List Token} {cs : List Char} : Spelled t → isBlank b = true →
      Spells ts cs → Spells (t :: ts) (t.text.toList ++ b :: cs)

theorem spelled_text {t : Token} (h : Spelled t) : ∃ c cs, t.text.toList = c :: cs ∧ isBlank c = false := by
  cases h with
  | fixed k s h =>
    have h1 := patterns_noBlank _ h
    simp only [noBlankPat, List.all_eq_true, Bool.not_eq_true'] at h1
    cases e : s.toList with
    | nil => rw [e] at h; exact absurd rfl (patterns_nonempty _ h)
    | cons c cs => exact ⟨c, cs, rfl, h1 c (by rw [e]; exact List.mem_cons_self)⟩
  | name s c cs hs hc hcs hk => exact ⟨c, cs, hs, isBlank_not_start hc⟩
  | integer s h0 h =>
    dsimp only
    cases e : s.toList with
    | nil => exact absurd e h0
    | cons c cs =>
      refine ⟨c, cs, rfl, ?_⟩
      have hd := h c (by rw [e]; exact List.mem_cons_self)
      cases hb : isBlank c with
      | false => rfl
      | true => rw [blank_not_digit c hb] at hd; cases hd
  | float s a b hs ha hb ha' hb' =>
    cases a with
    | nil => exact absurd rfl ha
    | cons c a =>
      refine ⟨c, _, hs, ?_⟩
      have hd := ha' c List.mem_cons_self
      cases hb : isBlank c with
      | false => rfl
      | true => rw [blank_not_digit c hb] at hd; cases hd
  | string s body value hs hb => exact ⟨_, _, hs, rfl⟩
  | backslash s body hs hb => exact ⟨_, _, hs, rfl⟩

/-- Blanks are skipped, as many as there are. -/
theorem scan_blank {b : Char} {cs : List Char} (hb : isBlank b = true) :
    scan (b :: cs) = ⟨(cs.takeWhile isBlank).length + 1, none⟩ := by
  have hf : patterns.filter (startsWith b) = [(.blank, .skip)] := by
    rcases blank_cases hb with rfl | rfl | rfl | rfl | rfl <;> decide +kernel
  have hl : Pat.blank.longest (b :: cs) = some ((cs.takeWhile isBlank).length + 1) := by
    simp [Pat.longest, runLength, List.takeWhile_cons, hb]
  unfold scan
  rw [longestMatch_start, hf]
  simp only [longestMatch, hl]

/-- A comment is skipped up to the end of the line. -/
theorem scan_comment {body cs : List Char} (h0 : body ≠ []) (hb : ∀ d ∈ body, d ≠ '\r' ∧ d ≠ '\n')
    (hc : LineEnds cs) : scan ('/' :: '/' :: (body ++ cs)) = ⟨body.length + 2, none⟩ := by
  have hf : patterns.filter (startsWith '/') =
      [(.lit ['/'], .tok .slash), (.lit ['/', '='], .tok .divAssign), (.comment, .skip)] := by decide +kernel
  have hr : (body ++ cs).takeWhile notNewline = body := by
    have hb' : ∀ d ∈ body, notNewline d = true := fun d hd => by simp [notNewline, (hb d hd).1, (hb d hd).2]
    cases cs with
    | nil =>
      rw [takeWhile_longest notNewline body [] hb']
      exact List.append_nil _
    | cons c cs =>
      refine takeWhile_stop _ _ _ _ hb' ?_
      rcases hc with rfl | rfl <;> rfl
  have hl : Pat.comment.longest ('/' :: '/' :: (body ++ cs)) = some (2 + body.length) := by
    simp only [Pat.longest, runLength, hr, if_neg h0, Option.map_some]
  have hn : 0 < body.length := List.length_pos_iff.2 h0
  have h1 : (Pat.lit ['/']).longest ('/' :: '/' :: (body ++ cs)) = some 1 := rfl
  have h2 : (Pat.lit ['/', '=']).longest ('/' :: '/' :: (body ++ cs)) = none := rfl
  unfold scan
  rw [longestMatch_start, hf]
  simp only [longestMatch, hl, h1, h2, Nat.add_comm 2, if_pos (show 1 < body.length + 2 by omega)]

theorem Spells.dropBlanks {ts : List Token} {cs : List Char} (h : Spells ts cs) :
    Spells ts (cs.drop (cs.takeWhile isBlank).length) := by
  induction h with
  | nil => exact .nil
  | last h =>
    obtain ⟨c, cs, e, hc⟩ := spelled_text h
    have : (c :: cs).takeWhile isBlank = [] := by simp [List.takeWhile_cons, hc]
    rw [e, this]
    exact e ▸ .last h
  | blank hb _ ih =>
    rw [List.takeWhile_cons, if_pos hb]
    exact ih
  | comment h0 hb hc hs _ => exact .comment h0 hb hc hs
  | @cons t b ts cs h hb hs _ =>
    obtain ⟨c, ds, e, hc⟩ := spelled_text h
    have : (t.text.toList ++ b :: cs).takeWhile isBlank = [] := by simp [e, List.takeWhile_cons, hc]
    rw [this]
    exact .cons h hb hs

theorem tokens_spelled (n : Nat) : ∀ (pos : Nat) (ts : List Token) (cs : List Char), cs.length ≤ n →
    Spells ts cs → (tokens n pos cs).map (·.item) = ts.map .ok := by
  induction n with
  | zero =>
    intro pos ts cs hn h
    cases cs with
    | nil =>
      cases hts : ts with
      | nil => rfl
      | cons t ts' =>
        subst hts
        generalize e : ([] : List Char) = cs at h
        cases h with
        | last h => obtain ⟨c, cs, e', -⟩ := spelled_text h; rw [← e] at e'; cases e'
        | blank => cases e
        | comment => cases e
        | cons h => obtain ⟨c, cs, e', -⟩ := spelled_text h; rw [e'] at e; cases e
    | cons => simp at hn
  | succ n ih =>
    intro pos ts cs hn h
    generalize hcs : cs = cs' at h
    cases h with
    | nil => subst hcs; rfl
    | @last t h =>
      obtain ⟨c, ds, e, -⟩ := spelled_text h
      have hs := scan_spelled h (r := []) trivial
      rw [List.append_nil] at hs
      subst hcs
      rw [e] at hs hn ⊢
      rw [tokens]
      · simp only [hs, List.take_length, List.drop_length, List.map_cons]
        rw [← e, String.ofList_toList, ih _ [] [] (by simp) .nil]
      · simp
    | @blank b _ ds hb h =>
      subst hcs
      rw [tokens]
      · simp only [scan_blank hb, List.drop_succ_cons]
        refine ih _ _ _ ?_ h.dropBlanks
        simp only [List.length_cons, List.length_drop] at hn ⊢
        omega
      · simp
    | @comment body _ ds h0 hb hc h =>
      subst hcs
      rw [tokens]
      · simp only [scan_comment h0 hb hc, List.drop_succ_cons, List.drop_left]
        refine ih _ _ _ ?_ h
        simp only [List.length_cons, List.length_append] at hn ⊢
        omega
      · simp
    | @cons t b ts ds h hb hds =>
      obtain ⟨c, es, e, -⟩ := spelled_text h
      have hs := scan_spelled h (r := b :: ds) hb
      subst hcs
      have hrest : (tokens n (pos + byteLength t.text.toList) (b :: ds)).map (·.item) = ts.map .ok :=
        ih _ _ _ (by rw [e] at hn; simp at hn ⊢; omega) (.blank hb hds)
      rw [e] at hs ⊢
      rw [e] at hrest
      rw [List.cons_append] at hs ⊢
      rw [tokens]
      · simp only [hs]
        rw [← List.cons_append, List.take_left, List.drop_left, List.map_cons, hrest, ← e, String.ofList_toList]
        rfl
      · simp

/-- **C41**: a text that spells tokens with blanks between them is split into these tokens. -/
theorem lex_spells {ts : List Token} {cs : List Char} (h : Spells ts cs) :
    (tokenize cs).map (·.item) = ts.map .ok :=
  tokens_spelled _ _ _ _ (Nat.le_refl _) h

/-- `x //= / */` and on the next line `y`: what is in a comment does not matter. -/
example : Spells [⟨.identifier, "x"⟩, ⟨.identifier, "y"⟩] "x //= / */\ny".toList :=
  have name (c : Char) (h : isIdentStart c = true) (h' : ∀ k ∈ keywords, k.1 ≠ String.ofList [c]) :
      Spelled ⟨.identifier, String.ofList [c]⟩ := .name _ c [] (by simp) h (by simp) h'
  .cons (t := ⟨.identifier, "x"⟩) (name 'x' (by decide) (by decide +kernel)) (b := ' ') rfl
    (.comment (body := "= / */".toList) (by decide) (by decide) (.inr rfl) (.blank (b := '\n') rfl
      (.last (t := ⟨.identifier, "y"⟩) (name 'y' (by decide) (by decide +kernel)))))

/-- The text of tokens with a space after each. -/
def spaced (ts : List Token) : List Char := ts.flatMap fun t => t.text.toList ++ [' ']

theorem spells_spaced (ts : List Token) (h : ∀ t ∈ ts, Spelled t) : Spells ts (spaced ts) := by
  induction ts with
  | nil => exact .nil
  | cons t ts ih =>
    have := Spells.cons (h t List.mem_cons_self) (b := ' ') rfl (ih fun u hu => h u (List.mem_cons_of_mem _ hu))
    simpa [spaced] using this

/-- Tokens of all sorts, and a text that spells them. -/
example : (tokenize "x1  <=\t3.5 ".toList).map (·.item) =
    [.ok ⟨.identifier, "x1"⟩, .ok ⟨.lessEqual, "<="⟩, .ok ⟨.float, "3.5"⟩] := by
  have h1 : Spelled ⟨.identifier, "x1"⟩ := .name _ 'x' ['1'] (by decide +kernel) (by decide) (by decide) (by decide +kernel)
  have h2 : Spelled ⟨.lessEqual, "<="⟩ := .fixed _ _ (by decide +kernel)
  have h3 : Spelled ⟨.float, "3.5"⟩ := .float _ ['3'] ['5'] (by decide +kernel) (by decide) (by decide) (by decide) (by decide)
  exact lex_spells (.cons h1 (b := ' ') rfl (.blank (b := ' ') rfl (.cons h2 (b := '\t') rfl
    (.cons h3 (b := ' ') rfl .nil))))


/-- The operators and punctuation marks of the language. -/
def punctuation : List (String × Kind) :=
  [("(", .leftParen), (")", .rightParen), ("{", .leftCurly), ("}", .rightCurly), ("[", .leftSquare),
    ("]", .rightSquare), (":", .colon), (",", .comma), ("|", .pipe), ("..", .rangeExclusive),
    ("..=", .rangeInclusive), ("->", .arrow), ("=>", .wideArrow), (".", .dot), ("?", .questionMark),
    ("!!", .errorPropagate), ("??", .coalesce), ("-", .minus), ("+", .plus), ("%", .remainder), ("*", .star),
    ("/", .slash), ("!", .not), ("!=", .notEqual), ("==", .equal), (">", .greater), (">=", .greaterEqual),
    ("<", .less), ("<=", .lessEqual), ("=", .assign), ("*=", .mulAssign), ("/=", .divAssign),
    ("+=", .addAssign), ("-=", .subAssign), ("&&", .lazyAnd), ("|>", .pipeline), ("#", .object)]

theorem fixed_tokens : ∀ p ∈ punctuation ++ keywords, (Pat.lit p.1.toList, Act.tok p.2) ∈ patterns := by
  decide +kernel

/-- C41: each operator, punctuation mark and keyword is lexed into its token. -/
theorem fixed_lexed {s : String} {k : Kind} (h : (s, k) ∈ punctuation ++ keywords) :
    (tokenize s.toList).map (·.item) = [.ok ⟨k, s⟩] :=
  lex_spells (.last (t := ⟨k, s⟩) (.fixed k s (fixed_tokens _ h)))

theorem fixed_patterns : ∀ q ∈ patterns, ∀ k, q.2 = .tok k →
    k = .identifier ∨ k = .integer ∨ k = .float ∨ ∃ p ∈ punctuation ++ keywords, q.1 = .lit p.1.toList ∧ k = p.2 := by
  have h : ∀ q ∈ patterns, (match q.2 with
      | .tok k => k == .identifier || k == .integer || k == .float ||
        (punctuation ++ keywords).any fun p => decide (q.1 = .lit p.1.toList) && k == p.2
      | _ => true) = true := by decide +kernel
  intro q hq k hk
  have := h q hq
  rw [hk] at this
  simp only [Bool.or_eq_true, beq_iff_eq, List.any_eq_true, Bool.and_eq_true, decide_eq_true_eq] at this
  rcases this with ((h | h) | h) | h
  · exact .inl h
  · exact .inr (.inl h)
  · exact .inr (.inr (.inl h))
  · exact .inr (.inr (.inr h))

end Dice
