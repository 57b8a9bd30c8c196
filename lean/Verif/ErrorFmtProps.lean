import Verif.ErrorFmt
import Verif.SourceProps

/-! # C51, C52, C53, C54: error reports -/

namespace Dice

/-! ## Specification -/

/-- The lines of a text, each with its final newline; no empty line is added at the end. -/
def splitLines : List Char → List (List Char)
  | [] => []
  | c :: cs =>
    if c = '\n' then [c] :: splitLines cs
    else
      match splitLines cs with
      | [] => [[c]]
      | l :: ls => (c :: l) :: ls

/-- A line of a text with its number and the offset of its first byte. -/
structure TextLine where
  number : Nat
  start : Nat
  text : List Char
deriving DecidableEq, Repr

/-- Numbers the lines from `n` on and adds up their lengths from `start` on. -/
def numberLines (n start : Nat) : List (List Char) → List TextLine
  | [] => []
  | l :: ls => ⟨n, start, l⟩ :: numberLines (n + 1) (start + byteLen l) ls

/-- The lines of a text, numbered from 1. -/
def numberedLines (text : List Char) : List TextLine := numberLines 1 0 (splitLines text)

/-- The line has a byte in common with the span. -/
def TextLine.meets (l : TextLine) (span : Span) : Bool :=
  decide (l.start < span.stop ∧ span.start < l.start + byteLen l.text)

/-- The lines of a text that have a byte in common with the span. -/
def linesOf (text : List Char) (span : Span) : List TextLine :=
  (numberedLines text).filter (·.meets span)

/-- A text without its trailing white space. -/
inductive TrimmedEnd : List Char → List Char → Prop
  | mk (kept rest : List Char) : (∀ c ∈ rest, isWhitespace c = true) →
    (∀ c, kept.getLast? = some c → isWhitespace c = false) → TrimmedEnd (kept ++ rest) kept

/-! ## Lemmas -/

namespace ErrorFmt

theorem trimEnd_trimmed (cs : List Char) : TrimmedEnd cs (trimEnd cs) := by
  have h := List.takeWhile_append_dropWhile (p := isWhitespace) (l := cs.reverse)
  have h2 : cs = trimEnd cs ++ (cs.reverse.takeWhile isWhitespace).reverse := by
    unfold trimEnd
    rw [← List.reverse_append, h, List.reverse_reverse]
  have h3 := TrimmedEnd.mk (trimEnd cs) (cs.reverse.takeWhile isWhitespace).reverse
    (by
      intro c hc
      rw [List.mem_reverse] at hc
      have := List.all_takeWhile (l := cs.reverse) (p := isWhitespace)
      rw [List.all_eq_true] at this
      exact this c hc)
    (by
      intro c hc
      unfold trimEnd at hc
      rw [List.getLast?_reverse] at hc
      have := List.head?_dropWhile_not isWhitespace cs.reverse
      rw [hc] at this
      simpa using this)
  rw [← h2] at h3
  exact h3

theorem splitLines_line (p : List Char) (h : '\n' ∉ p) :
    splitLines p = if p = [] then [] else [p] := by
  induction p with
  | nil => rfl
  | cons c p ih =>
    simp only [List.mem_cons, not_or] at h
    have hc : c ≠ '\n' := fun e => h.1 e.symm
    simp only [splitLines, hc, if_false, ih h.2]
    by_cases hp : p = [] <;> simp [hp]

theorem splitLines_newline (p cs : List Char) (h : '\n' ∉ p) :
    splitLines (p ++ '\n' :: cs) = (p ++ ['\n']) :: splitLines cs := by
  induction p with
  | nil => simp [splitLines]
  | cons c p ih =>
    simp only [List.mem_cons, not_or] at h
    have hc : c ≠ '\n' := fun e => h.1 e.symm
    simp only [List.cons_append, splitLines, hc, if_false, ih h.2]

/-- The byte range of a line. -/
def range (l : TextLine) : Span := ⟨l.start, l.start + byteLen l.text⟩

theorem byteLen_pos {p : List Char} (h : p ≠ []) : 0 < byteLen p := by
  cases p with
  | nil => exact absurd rfl h
  | cons c p => simp only [byteLen]; have := lenUtf8_pos c; omega

theorem lineSpans_numbered (cs : List Char) : ∀ (p : List Char) (n start : Nat), '\n' ∉ p →
    lineSpans start (start + byteLen p) cs = (numberLines n start (splitLines (p ++ cs))).map range := by
  induction cs with
  | nil =>
    intro p n start h
    rw [List.append_nil, splitLines_line p h]
    by_cases hp : p = []
    · subst hp; simp [lineSpans, byteLen, numberLines]
    · have := byteLen_pos hp
      simp [lineSpans, hp, numberLines, range, this]
  | cons c cs ih =>
    intro p n start h
    by_cases hc : c = '\n'
    · subst hc
      rw [splitLines_newline p cs h]
      have h0 := ih [] (n + 1) (start + byteLen (p ++ ['\n'])) (by simp)
      simp only [byteLen, Nat.add_zero, List.nil_append] at h0
      simp only [lineSpans, if_pos, numberLines, List.map_cons, ← h0, range]
      rw [byteLen_append]
      simp only [byteLen, Nat.add_zero, Nat.add_assoc]
    · have h1 := ih (p ++ [c]) n start (by simp [h, Ne.symm hc])
      rw [List.append_assoc, List.singleton_append] at h1
      rw [← h1, byteLen_append]
      simp only [lineSpans, hc, if_false, byteLen, Nat.add_zero, Nat.add_assoc]

theorem lineSpans_lines (text : List Char) :
    lineSpans 0 0 text = (numberedLines text).map range := by
  have := lineSpans_numbered text [] 1 0 (by simp)
  simpa [byteLen, numberedLines] using this

/-- Where a line stands in its text. -/
theorem numbered_mem (cs : List Char) : ∀ (pre p : List Char), '\n' ∉ p → lastLine pre = [] →
    ∀ l ∈ numberLines (pre.count '\n' + 1) (byteLen pre) (splitLines (p ++ cs)),
      ∃ before after, pre ++ p ++ cs = before ++ l.text ++ after ∧ l.start = byteLen before ∧
        l.number = before.count '\n' + 1 ∧ lastLine before = [] ∧ l.text ≠ [] ∧
        '\n' ∉ l.text.dropLast := by
  induction cs with
  | nil =>
    intro pre p h hp l hl
    rw [List.append_nil, splitLines_line p h] at hl
    by_cases he : p = []
    · simp [he, numberLines] at hl
    · simp only [he, if_false, numberLines, List.mem_singleton] at hl
      subst hl
      exact ⟨pre, [], by simp, rfl, rfl, hp, he, fun hm => h (List.dropLast_subset p hm)⟩
  | cons c cs ih =>
    intro pre p h hp l hl
    by_cases hc : c = '\n'
    · subst hc
      rw [splitLines_newline p cs h] at hl
      simp only [numberLines, List.mem_cons] at hl
      rcases hl with rfl | hl
      · exact ⟨pre, cs, by simp, rfl, rfl, hp, by simp, by simpa using h⟩
      · have := ih (pre ++ (p ++ ['\n'])) [] (by simp)
          (by rw [← List.append_assoc, lastLine_snoc]; simp) l
          (by
            rw [List.nil_append, byteLen_append]
            have hcount : (pre ++ (p ++ ['\n'])).count '\n' = pre.count '\n' + 1 := by
              rw [List.count_append, List.count_append, List.count_eq_zero.mpr h]
              simp
            rw [hcount]
            exact hl)
        obtain ⟨b, a, h1, h2⟩ := this
        exact ⟨b, a, by rw [← h1]; simp, h2⟩
    · have := ih pre (p ++ [c]) (by simp [h, Ne.symm hc]) hp l
        (by rw [List.append_assoc, List.singleton_append]; exact hl)
      obtain ⟨b, a, h1, h2⟩ := this
      exact ⟨b, a, by rw [← h1]; simp, h2⟩

theorem numberedLines_mem {text : List Char} {l : TextLine} (h : l ∈ numberedLines text) :
    ∃ before after, text = before ++ l.text ++ after ∧ l.start = byteLen before ∧
      l.number = before.count '\n' + 1 ∧ lastLine before = [] ∧ l.text ≠ [] ∧
      '\n' ∉ l.text.dropLast := by
  have := numbered_mem text [] [] (by simp) (by rfl) l (by simpa [byteLen, numberedLines] using h)
  simpa using this

theorem dropBytes_append (pre rest : List Char) : dropBytes (pre ++ rest) (byteLen pre) = some rest := by
  induction pre with
  | nil => simp [byteLen, dropBytes]
  | cons c pre ih =>
    have h := lenUtf8_pos c
    obtain ⟨n, hn⟩ : ∃ n, byteLen (c :: pre) = n + 1 := ⟨byteLen (c :: pre) - 1, by simp [byteLen]; omega⟩
    rw [hn]
    have hn' : n + 1 - lenUtf8 c = byteLen pre := by rw [← hn]; simp [byteLen]
    have hle : lenUtf8 c ≤ n + 1 := by rw [← hn]; simp [byteLen]
    simp only [List.cons_append, dropBytes]
    rw [if_pos hle, hn', ih]

theorem takeBytes_append (pre rest : List Char) : takeBytes (pre ++ rest) (byteLen pre) = some pre := by
  induction pre with
  | nil => simp [byteLen, takeBytes]
  | cons c pre ih =>
    have h := lenUtf8_pos c
    obtain ⟨n, hn⟩ : ∃ n, byteLen (c :: pre) = n + 1 := ⟨byteLen (c :: pre) - 1, by simp [byteLen]; omega⟩
    rw [hn]
    have hn' : n + 1 - lenUtf8 c = byteLen pre := by rw [← hn]; simp [byteLen]
    have hle : lenUtf8 c ≤ n + 1 := by rw [← hn]; simp [byteLen]
    simp only [List.cons_append, takeBytes]
    rw [if_pos hle, hn', ih]
    rfl

theorem sliceBytes_exact (before text after : List Char) :
    sliceBytes (before ++ text ++ after) ⟨byteLen before, byteLen before + byteLen text⟩ = some text := by
  unfold sliceBytes
  rw [if_pos (by simp), List.append_assoc, dropBytes_append]
  simp only [Option.bind_some, Nat.add_sub_cancel_left]
  exact takeBytes_append text after

theorem slice_line {text : List Char} {l : TextLine} (h : l ∈ numberedLines text) :
    sliceBytes text (range l) = some l.text := by
  obtain ⟨b, a, h1, h2, _⟩ := numberedLines_mem h
  unfold range
  rw [h1, h2]
  exact sliceBytes_exact b l.text a

theorem position_line {text : List Char} {l : TextLine} (h : l ∈ numberedLines text) :
    ∃ p, (LineIndex.new text).positionOf l.start = some p ∧ p.line + 1 = l.number ∧ p.columnUtf16 = 0 := by
  obtain ⟨b, a, h1, h2, h3, h4, h5, _⟩ := numberedLines_mem h
  rw [h1, h2, List.append_assoc]
  refine ⟨_, position_of_exact b (l.text ++ a) 0 ?_, h3.symm, by simp [h4, utf16Len]⟩
  cases ht : l.text with
  | nil => exact absurd ht h5
  | cons c cs => exact Or.inr ⟨c, cs ++ a, rfl, lenUtf8_pos c⟩

theorem prefix_of_byteLen : ∀ {a b c d : List Char}, a ++ b = c ++ d → byteLen a ≤ byteLen c →
    ∃ q, c = a ++ q := by
  intro a b c d h hle
  rcases List.append_eq_append_iff.mp h with ⟨q, h1, _⟩ | ⟨q, h1, _⟩
  · exact ⟨q, h1⟩
  · subst h1
    rw [byteLen_append] at hle
    have : q = [] := by
      by_cases hq : q = []
      · exact hq
      · have := byteLen_pos hq; omega
    exact ⟨[], by simp [this]⟩

/-- The line that contains a byte carries the number of newlines before that byte, plus one. -/
theorem number_of_line {text pre post : List Char} {l : TextLine} (ht : text = pre ++ post)
    (h : l ∈ numberedLines text) (h1 : l.start ≤ byteLen pre) (h2 : byteLen pre < l.start + byteLen l.text) :
    l.number = pre.count '\n' + 1 := by
  obtain ⟨b, a, e1, e2, e3, _, _, e6⟩ := numberedLines_mem h
  rw [e1, List.append_assoc] at ht
  obtain ⟨q, rfl⟩ := prefix_of_byteLen ht (by omega)
  rw [List.append_assoc, List.append_cancel_left_eq] at ht
  rw [byteLen_append] at h2
  obtain ⟨q', hq'⟩ := prefix_of_byteLen ht.symm (by omega)
  have hne : q' ≠ [] := by
    rintro rfl
    rw [hq', List.append_nil] at h2
    omega
  have : '\n' ∉ q := by
    intro hm
    refine e6 ?_
    rw [hq', List.dropLast_append_of_ne_nil hne]
    exact List.mem_append_left _ hm
  rw [e3, List.count_append, List.count_eq_zero.mpr this, Nat.add_zero]

theorem mapM_some {α β : Type} {f : α → Option β} {g : α → β} {l : List α}
    (h : ∀ x ∈ l, f x = some (g x)) : l.mapM f = some (l.map g) := by
  induction l with
  | nil => rfl
  | cons a l ih =>
    rw [List.mapM_cons, h a (by simp), ih (fun x hx => h x (by simp [hx]))]
    rfl

theorem mapM_total {α β : Type} {f : α → Option β} {l : List α}
    (h : ∀ x ∈ l, ∃ y, f x = some y) : ∃ ys, l.mapM f = some ys := by
  induction l with
  | nil => exact ⟨[], rfl⟩
  | cons a l ih =>
    obtain ⟨y, hy⟩ := h a (by simp)
    obtain ⟨ys, hys⟩ := ih (fun x hx => h x (by simp [hx]))
    exact ⟨y :: ys, by rw [List.mapM_cons, hy, hys]; rfl⟩

theorem lines_linesOf (text : List Char) (span : Span) (h1 : span.start < span.stop)
    (h2 : span.stop ≤ byteLen text) :
    (LineIndex.new text).lines span = some ((linesOf text span).map range) := by
  rw [lines_exact text span h1 h2, lineSpans_lines, List.filter_map]
  rfl

theorem linesOf_mem {text : List Char} {span : Span} {l : TextLine} (h : l ∈ linesOf text span) :
    l ∈ numberedLines text := (List.mem_filter.mp h).1

theorem linesOf_ne_nil (text : List Char) (span : Span) (h1 : span.start < span.stop)
    (h2 : span.stop ≤ byteLen text) : linesOf text span ≠ [] := by
  obtain ⟨_, _, _, i4⟩ := lineSpans_tile text 0 0 (Nat.le_refl 0)
  obtain ⟨l, hl, ha, hb⟩ := i4 span.start (by omega) (by omega)
  rw [lineSpans_lines] at hl
  obtain ⟨t, ht, rfl⟩ := List.mem_map.mp hl
  simp only [range] at ha hb
  intro he
  have : t ∈ linesOf text span :=
    List.mem_filter.mpr ⟨ht, by simp only [TextLine.meets, decide_eq_true_eq]; omega⟩
  rw [he] at this
  cases this

theorem countP_le_succ (p : Nat) (l : List Nat) (h : l.Pairwise (· < ·)) :
    l.countP (fun it => decide (it ≤ p)) ≤ l.countP (fun it => decide (it < p)) + 1 := by
  induction l with
  | nil => simp
  | cons x l ih =>
    obtain ⟨h1, h2⟩ := List.pairwise_cons.mp h
    by_cases hx : x < p
    · rw [List.countP_cons_of_pos (by simp; omega), List.countP_cons_of_pos (by simp; omega)]
      have := ih h2
      omega
    · have h0 : l.countP (fun it => decide (it ≤ p)) = 0 := by
        rw [List.countP_eq_zero]
        intro y hy
        have := h1 y hy
        simp; omega
      have := List.countP_cons (p := fun it => decide (it ≤ p)) (a := x) (l := l)
      rw [this, h0]
      split <;> omega

theorem mem_pairsTo_drop (fin : Nat) : ∀ (l : List Nat) (k : Nat) (s : Span),
    s ∈ pairsTo fin (l.drop k) → s ∈ pairsTo fin l := by
  intro l
  induction l with
  | nil => intro k s h; simpa using h
  | cons x l ih =>
    intro k s h
    cases k with
    | zero => exact h
    | succ k =>
      have h' := ih k s h
      cases l with
      | nil => cases h'
      | cons y rest => exact List.mem_cons_of_mem _ h'

theorem mem_pairsTo_take (fin r : Nat) : ∀ (l : List Nat) (j : Nat) (s : Span), l[j]? = some r →
    s ∈ pairsTo r (l.take (j + 1)) → s.isEmpty = false → s ∈ pairsTo fin l := by
  intro l
  induction l with
  | nil => intro j s h; simp at h
  | cons x l ih =>
    intro j s hj hs he
    cases j with
    | zero =>
      simp only [List.getElem?_cons_zero, Option.some.injEq] at hj
      subst hj
      simp only [Nat.zero_add, List.take_succ_cons, List.take_zero, pairsTo, List.mem_singleton] at hs
      subst hs
      simp [Span.isEmpty] at he
    | succ j =>
      cases l with
      | nil => simp at hj
      | cons y rest =>
        simp only [List.take_succ_cons, pairsTo, List.mem_cons] at hs ⊢
        rcases hs with hs | hs
        · exact Or.inl hs
        · exact Or.inr (ih j s (by simpa using hj) (by simpa only [List.take_succ_cons] using hs) he)

/-- Without a panic, whatever the span, as long as it is not reversed, `lines` lists lines of the text. -/
theorem lines_any (text : List Char) (span : Span) (h : span.start ≤ span.stop) :
    ∃ ls, (LineIndex.new text).lines span = some ls ∧
      ∀ s ∈ ls, ∃ l ∈ numberedLines text, s = range l := by
  have hs := new_sorted text
  have hb : ∀ y ∈ (LineIndex.new text).newlines, y ≤ byteLen text := by
    rw [new_newlines]
    intro y hy
    rcases List.mem_cons.mp hy with rfl | hy
    · omega
    · have := nlFrom_bounds text 0 y hy; omega
  have hlen : (LineIndex.new text).utf8Len = byteLen text := rfl
  have hnl := new_newlines text
  have hsub : ∀ s ∈ (pairsTo (byteLen text) (LineIndex.new text).newlines).filter (fun s => !s.isEmpty),
      ∃ l ∈ numberedLines text, s = range l := by
    intro s hs'
    rw [hnl] at hs'
    have := lineSpans_pairs text 0 0 (Nat.le_refl 0)
    rw [Nat.zero_add] at this
    rw [← this, lineSpans_lines] at hs'
    obtain ⟨l, hl, rfl⟩ := List.mem_map.mp hs'
    exact ⟨l, hl, rfl⟩
  unfold LineIndex.lines
  rw [partitionPoint_sorted _ (fun it => decide (it ≤ span.start)) hs
    (by intro a b hab hb; simp at *; omega)]
  rw [partitionPoint_sorted _ (fun it => decide (it < span.stop)) hs
    (by intro a b hab hb; simp at *; omega)]
  rw [hlen]
  generalize hnl' : (LineIndex.new text).newlines = nl at hs hb hsub
  have hst : ∀ n : Nat, (if n ≠ 0 then n - 1 else n) = n - 1 := by intro n; split <;> omega
  have hle : nl.countP (fun it => decide (it ≤ span.start)) ≤
      nl.countP (fun it => decide (it < span.stop)) + 1 :=
    Nat.le_trans (countP_le_succ span.start nl hs)
      (Nat.add_le_add_right (List.countP_mono_left (by intro x _ hx; simp at *; omega)) 1)
  simp only [hst]
  cases hm : nl[nl.countP (fun it => decide (it < span.stop))]? with
  | some r =>
    simp only []
    rw [if_pos (by omega), zip_pairs]
    refine ⟨_, rfl, fun s hmem => hsub s ?_⟩
    obtain ⟨h1, h2⟩ := List.mem_filter.mp hmem
    refine List.mem_filter.mpr ⟨?_, h2⟩
    exact mem_pairsTo_take _ r nl _ s hm (mem_pairsTo_drop r _ _ s h1) (by simpa using h2)
  | none =>
    simp only []
    rw [if_pos (by omega), zip_pairs]
    refine ⟨_, rfl, fun s hmem => hsub s ?_⟩
    obtain ⟨h1, h2⟩ := List.mem_filter.mp hmem
    refine List.mem_filter.mpr ⟨?_, h2⟩
    rw [List.getElem?_eq_none_iff] at hm
    rw [List.take_of_length_le hm] at h1
    exact mem_pairsTo_drop _ _ _ s h1

end ErrorFmt

open ErrorFmt

/-! ## Theorems -/

/-- C51: the position shown for an error is the number of the line in which its span starts, counted from
1, and the number of UTF-16 code units before it on that line, counted from 1.  The start of the span is
written as the length of the text before it. -/
theorem position_shown (paint : Paint) (r : Report) (s : SourceFile) (pre post : List Char)
    (ht : s.text = pre ++ post) (hs : r.span.start = byteLen pre) :
    fmtPosition paint r s = some [paint .cyanBold "  -->".toList ++ " ".toList ++ pathText s ++
      ":".toList ++ Nat.toDigits 10 (pre.count '\n' + 1) ++ ":".toList ++
      Nat.toDigits 10 (utf16Len (lastLine pre) + 1)] := by
  have h := position_of_exact pre post 0 (by
    cases post with
    | nil => exact Or.inl rfl
    | cons c cs => exact Or.inr ⟨c, cs, rfl, lenUtf8_pos c⟩)
  rw [← ht] at h
  simp only [Nat.add_zero] at h
  unfold fmtPosition SourceFile.index
  rw [hs, h]
  simp [place]

/-- C51: for an error with a non-empty span inside its source, exactly the lines that have a byte in
common with the span are shown, in order, each with its own number and without its trailing white
space, between two rules. -/
theorem source_shown (paint : Paint) (r : Report) (s : SourceFile) (h1 : r.span.start < r.span.stop)
    (h2 : r.span.stop ≤ byteLen s.text) :
    fmtSource paint r s = some (paint .cyanBold "     |".toList ::
      (linesOf s.text r.span).map (fun l =>
        paint .cyanBold (padNumber l.number ++ " | ".toList) ++ " ".toList ++ trimEnd l.text) ++
      [paint .cyanBold "     |".toList]) := by
  unfold fmtSource
  simp only [SourceFile.index, lines_linesOf s.text r.span h1 h2]
  have hne : ((linesOf s.text r.span).map range).isEmpty = false := by
    have := linesOf_ne_nil s.text r.span h1 h2
    simpa using this
  have hm : ((linesOf s.text r.span).map range).mapM (fmtSourceLine paint s) =
      some ((linesOf s.text r.span).map (fun l =>
        paint .cyanBold (padNumber l.number ++ " | ".toList) ++ " ".toList ++ trimEnd l.text)) := by
    rw [List.mapM_map]
    refine mapM_some (fun l hl => ?_)
    obtain ⟨p, hp, hn, _⟩ := position_line (linesOf_mem hl)
    have hp' : s.index.positionOf (range l).start = some p := hp
    simp only [Function.comp, fmtSourceLine]
    rw [hp', slice_line (linesOf_mem hl), ← hn]
    simp
  simp only [Option.bind_eq_bind, Option.bind_some, hne]
  rw [hm]
  simp

/-- C51: the whole report of an error with a source: the message, the position, the lines, and the notes
in the order in which they were attached. -/
theorem report_shown (paint : Paint) (locale : Locale) (r : Report) (s : SourceFile)
    (pre post : List Char) (hsrc : r.source = some s) (ht : s.text = pre ++ post)
    (hs : r.span.start = byteLen pre) (h1 : r.span.start < r.span.stop)
    (h2 : r.span.stop ≤ byteLen s.text) (htr : r.trace = []) :
    fmtPretty paint locale r = some (
      [paint .bold (paint .red ("error[".toList ++ r.code ++ "]: ".toList) ++
        locale.message r.code r.tags)] ++
      [paint .cyanBold "  -->".toList ++ " ".toList ++ pathText s ++ ":".toList ++
        Nat.toDigits 10 (pre.count '\n' + 1) ++ ":".toList ++
        Nat.toDigits 10 (utf16Len (lastLine pre) + 1)] ++
      (paint .cyanBold "     |".toList ::
        (linesOf s.text r.span).map (fun l =>
          paint .cyanBold (padNumber l.number ++ " | ".toList) ++ " ".toList ++ trimEnd l.text) ++
        [paint .cyanBold "     |".toList]) ++
      r.context.map (fun c => (if c.kind = .note then paint .greenBold "note: ".toList
        else paint .yellowBold "help: ".toList) ++ locale.note c.msgId c.tags)) := by
  have hctx : fmtContext paint locale r = r.context.map (fun c =>
      (if c.kind = .note then paint .greenBold "note: ".toList
        else paint .yellowBold "help: ".toList) ++ locale.note c.msgId c.tags) := by
    unfold fmtContext
    refine List.map_congr_left (fun c _ => ?_)
    cases c.kind <;> simp
  unfold fmtPretty
  rw [hsrc]
  simp only [position_shown paint r s pre post ht hs, source_shown paint r s h1 h2, fmtTrace, htr, hctx,
    fmtMessage]
  simp

/-- C52: formatting an error does not panic, whatever its code, tags, notes and trace, as long as no span
is reversed.  The spans may lie anywhere, even outside the text or inside a character. -/
theorem report_total (paint : Paint) (locale : Locale) (r : Report)
    (hr : r.span.start ≤ r.span.stop) (ht : ∀ t ∈ r.trace, t.span.start ≤ t.span.stop) :
    (∃ out, fmtPretty paint locale r = some out) ∧ ∃ out, fmt paint locale r = some out := by
  have hpos : ∀ s, ∃ out, fmtPosition paint r s = some out := by
    intro s
    obtain ⟨p, hp⟩ := position_of_total s.text r.span.start
    exact ⟨_, by unfold fmtPosition SourceFile.index; rw [hp]; rfl⟩
  have hsource : ∀ s, ∃ out, fmtSource paint r s = some out := by
    intro s
    obtain ⟨ls, hls, hmem⟩ := lines_any s.text r.span hr
    obtain ⟨ys, hys⟩ : ∃ ys, ls.mapM (fmtSourceLine paint s) = some ys := by
      refine mapM_total (fun x hx => ?_)
      obtain ⟨l, hl, rfl⟩ := hmem x hx
      obtain ⟨p, hp, _⟩ := position_line hl
      have hp' : s.index.positionOf (range l).start = some p := hp
      exact ⟨_, by unfold fmtSourceLine; rw [hp', slice_line hl]; rfl⟩
    unfold fmtSource SourceFile.index
    rw [hls]
    simp only [Option.bind_eq_bind, Option.bind_some]
    by_cases he : ls.isEmpty = true
    · exact ⟨[], by simp [he]⟩
    · rw [if_neg he, hys]; exact ⟨_, rfl⟩
  have hentry : ∀ t ∈ r.trace, ∃ out, fmtTraceEntry t = some out := by
    intro t htm
    obtain ⟨p, hp⟩ := position_of_total t.source.text t.span.start
    obtain ⟨ls, hls, hmem⟩ := lines_any t.source.text t.span (ht t htm)
    obtain ⟨ys, hys⟩ : ∃ ys, ls.mapM (fmtTraceLine t.source p) = some ys := by
      refine mapM_total (fun x hx => ?_)
      obtain ⟨l, hl, rfl⟩ := hmem x hx
      exact ⟨_, by unfold fmtTraceLine; rw [slice_line hl]; rfl⟩
    exact ⟨_, by unfold fmtTraceEntry SourceFile.index; rw [hp, hls]; simp only [Option.bind_eq_bind,
      Option.bind_some]; rw [hys]; rfl⟩
  have htrace : ∃ out, fmtTrace r = some out := by
    unfold fmtTrace
    by_cases he : r.trace.isEmpty = true
    · exact ⟨[], by simp [he]⟩
    · obtain ⟨ys, hys⟩ := mapM_total (f := fmtTraceEntry) (l := r.trace.reverse)
        (fun t h => hentry t (List.mem_reverse.mp h))
      rw [if_neg he, hys]
      exact ⟨_, rfl⟩
  obtain ⟨tr, htr⟩ := htrace
  unfold fmtPretty fmt
  cases hsrc : r.source with
  | none => rw [htr]; exact ⟨⟨_, rfl⟩, ⟨_, rfl⟩⟩
  | some s =>
    obtain ⟨a, ha⟩ := hpos s
    obtain ⟨b, hb⟩ := hsource s
    simp only [ha, hb, htr]
    exact ⟨⟨_, rfl⟩, ⟨_, rfl⟩⟩

/-- The lines of a trace entry as the code shows them: the lines that meet the span, in order and without
surrounding white space, but all with the number of the line in which the span starts. -/
theorem trace_entry_shown (t : TraceEntry) (pre post : List Char) (ht : t.source.text = pre ++ post)
    (hs : t.span.start = byteLen pre) (h1 : t.span.start < t.span.stop)
    (h2 : t.span.stop ≤ byteLen t.source.text) :
    fmtTraceEntry t = some (("  Location: ".toList ++ pathText t.source ++ ":".toList ++
        Nat.toDigits 10 (pre.count '\n' + 1) ++ ":".toList ++
        Nat.toDigits 10 (utf16Len (lastLine pre) + 1)) ::
      (linesOf t.source.text t.span).map (fun l =>
        "    ".toList ++ padNumber (pre.count '\n' + 1) ++ " | ".toList ++ trimBoth l.text)) := by
  have h := position_of_exact pre post 0 (by
    cases post with
    | nil => exact Or.inl rfl
    | cons c cs => exact Or.inr ⟨c, cs, rfl, lenUtf8_pos c⟩)
  rw [← ht] at h
  simp only [Nat.add_zero] at h
  have hm : ((linesOf t.source.text t.span).map range).mapM
      (fmtTraceLine t.source ⟨pre.count '\n', utf16Len (lastLine pre)⟩) =
      some ((linesOf t.source.text t.span).map (fun l =>
        "    ".toList ++ padNumber (pre.count '\n' + 1) ++ " | ".toList ++ trimBoth l.text)) := by
    rw [List.mapM_map]
    refine mapM_some (fun l hl => ?_)
    simp only [Function.comp, fmtTraceLine]
    rw [slice_line (linesOf_mem hl)]
    simp
  unfold fmtTraceEntry SourceFile.index
  rw [hs, h, lines_linesOf _ _ h1 h2]
  simp only [Option.bind_eq_bind, Option.bind_some, hm]
  simp [place]

/-- C53: the entries of a trace are shown newest first, each as its location followed by its lines. -/
theorem trace_order (r : Report) (out : List (List Char)) (h : fmtTrace r = some out)
    (hne : r.trace ≠ []) : ∃ blocks : List (List (List Char)),
      out = [] :: "Trace:".toList :: blocks.flatten ∧
      r.trace.reverse.map fmtTraceEntry = blocks.map some := by
  unfold fmtTrace at h
  rw [if_neg (by simpa using hne)] at h
  cases hm : r.trace.reverse.mapM fmtTraceEntry with
  | none => rw [hm] at h; cases h
  | some bs =>
    rw [hm] at h
    simp only [Option.bind_eq_bind, Option.bind_some, Option.some.injEq] at h
    refine ⟨bs, h.symm, ?_⟩
    clear h hne
    generalize r.trace.reverse = l at hm
    induction l generalizing bs with
    | nil => cases hm; rfl
    | cons a l ih =>
      rw [List.mapM_cons] at hm
      cases ha : fmtTraceEntry a with
      | none => rw [ha] at hm; cases hm
      | some b =>
        rw [ha] at hm
        cases hl : l.mapM fmtTraceEntry with
        | none => rw [hl] at hm; cases hm
        | some bs' =>
          rw [hl] at hm
          cases hm
          rw [List.map_cons, List.map_cons, ha, ih bs' hl]

/-- C53, restricted to spans inside one line: the trace shows that line with its own number.  Missing for
C53: spans over several lines, where the code repeats the first number (`trace_numbers_wrong`). -/
theorem trace_numbers_partial (t : TraceEntry) (l : TextLine) (pre post : List Char)
    (ht : t.source.text = pre ++ post) (hs : t.span.start = byteLen pre)
    (h1 : t.span.start < t.span.stop) (h2 : t.span.stop ≤ byteLen t.source.text)
    (hl : linesOf t.source.text t.span = [l]) :
    fmtTraceEntry t = some [
      "  Location: ".toList ++ pathText t.source ++ ":".toList ++ Nat.toDigits 10 l.number ++
        ":".toList ++ Nat.toDigits 10 (utf16Len (lastLine pre) + 1),
      "    ".toList ++ padNumber l.number ++ " | ".toList ++ trimBoth l.text] := by
  have hn : l.number = pre.count '\n' + 1 := by
    obtain ⟨_, _, _, i4⟩ := lineSpans_tile t.source.text 0 0 (Nat.le_refl 0)
    obtain ⟨x, hx, ha, hb⟩ := i4 t.span.start (by omega) (by omega)
    rw [lineSpans_lines] at hx
    obtain ⟨k, hk, rfl⟩ := List.mem_map.mp hx
    simp only [range] at ha hb
    have hk' : k ∈ linesOf t.source.text t.span :=
      List.mem_filter.mpr ⟨hk, by simp only [TextLine.meets, decide_eq_true_eq]; omega⟩
    rw [hl, List.mem_singleton] at hk'
    subst hk'
    exact number_of_line ht hk (by omega) (by omega)
  rw [trace_entry_shown t pre post ht hs h1 h2, hl, hn]
  rfl

/-- C53 is false of the code: a trace over two lines shows the second line with the number of the
first. -/
theorem trace_numbers_wrong :
    linesOf "f(\n1)".toList ⟨0, 5⟩ = [⟨1, 0, "f(\n".toList⟩, ⟨2, 3, "1)".toList⟩] ∧
    fmtTraceEntry ⟨⟨none, "f(\n1)".toList⟩, ⟨0, 5⟩⟩ = some ["  Location: <Script>:1:1".toList,
      "    1    | f(".toList, "    1    | 1)".toList] := by
  have h : linesOf "f(\n1)".toList ⟨0, 5⟩ = [⟨1, 0, "f(\n".toList⟩, ⟨2, 3, "1)".toList⟩] := by
    decide +kernel
  refine ⟨h, ?_⟩
  rw [trace_entry_shown ⟨⟨none, "f(\n1)".toList⟩, ⟨0, 5⟩⟩ [] "f(\n1)".toList rfl rfl (by decide)
    (by decide +kernel), h]
  decide +kernel

/-- A reversed span makes the report panic. -/
theorem report_reversed_panics (paint : Paint) (locale : Locale) :
    fmtPretty paint locale ((Report.new "E1000".toList).withSource ⟨none, "a\nb\nc\nd".toList⟩
      |>.withSpan ⟨7, 0⟩) = none := by
  have h : (LineIndex.new "a\nb\nc\nd".toList).lines ⟨7, 0⟩ = none := by decide +kernel
  obtain ⟨p, hp⟩ := position_of_total "a\nb\nc\nd".toList 7
  simp only [fmtPretty, Report.withSpan, Report.withSource, fmtSource, SourceFile.index, fmtPosition, h, hp]
  rfl

/-- C54, all codes but one: different errors have different codes.  Missing: `GLOBAL_ALREADY_EXISTS`
(`error_codes_clash`). -/
theorem error_codes_distinct_partial : ∀ a ∈ errorCodes, ∀ b ∈ errorCodes,
    a.1 ≠ "GLOBAL_ALREADY_EXISTS" → b.1 ≠ "GLOBAL_ALREADY_EXISTS" → a.2 = b.2 → a = b := by
  decide +kernel

/-- C54 is false of the code: two errors share the code `E4002`, whose message is about module
locations. -/
theorem error_codes_clash : ("INVALID_SCRIPT_LOCATION", "E4002") ∈ errorCodes ∧
    ("GLOBAL_ALREADY_EXISTS", "E4002") ∈ errorCodes := by decide +kernel

/-- C54: exactly these errors have no message. -/
theorem error_codes_without_message : errorCodes.filter (fun e => !localisedCodes.contains e.2) =
    [("UNTERMINATED_BACKSLASH_ARG", "E1009"), ("MODULE_ALREADY_EXISTS", "E4003")] := by decide +kernel

/-! ## Instances -/

/-- A source with a two-byte character and an error over its second and third lines. -/
example : fmtPretty Paint.plain ⟨fun _ _ => "oops".toList, fun _ _ => "try again".toList⟩
    (((Report.new "E2401".toList).withSource ⟨some "m.dice".toList, "let é = 1\né + \n  x\n".toList⟩
      |>.withSpan ⟨14, 20⟩).pushContext ⟨[], [], .help⟩) =
    some ["error[E2401]: oops".toList, "  --> m.dice:2:3".toList, "     |".toList,
      "2    |  é +".toList, "3    |    x".toList, "     |".toList, "help: try again".toList] := by
  rw [report_shown _ _ _ ⟨some "m.dice".toList, "let é = 1\né + \n  x\n".toList⟩
    "let é = 1\né ".toList "+ \n  x\n".toList rfl (by decide +kernel) (by decide +kernel)
    (by decide +kernel) (by decide +kernel) rfl]
  decide +kernel

/-- A trace inside one line. -/
example : fmtTraceEntry ⟨⟨none, "a\n  b!!\n".toList⟩, ⟨4, 7⟩⟩ =
    some ["  Location: <Script>:2:3".toList, "    2    | b!!".toList] := by
  rw [trace_numbers_partial ⟨⟨none, "a\n  b!!\n".toList⟩, ⟨4, 7⟩⟩ ⟨2, 2, "  b!!\n".toList⟩
    "a\n  ".toList "b!!\n".toList rfl (by decide +kernel) (by decide) (by decide +kernel)
    (by decide +kernel)]
  decide +kernel

/-- C53: the places an error passes on its way out, added one after the other, are shown with the last one, the outermost,
first. -/
theorem pushed_traces_order (r : Report) (hr : r.trace = []) (ts : List TraceEntry) (hne : ts ≠ []) (out : List (List Char))
    (h : fmtTrace (ts.foldl Report.pushTrace r) = some out) : ∃ blocks : List (List (List Char)),
      out = [] :: "Trace:".toList :: blocks.flatten ∧ ts.reverse.map fmtTraceEntry = blocks.map some := by
  have ht : ∀ (ts : List TraceEntry) (r : Report), (ts.foldl Report.pushTrace r).trace = r.trace ++ ts := by
    intro ts
    induction ts with
    | nil => intro r; simp
    | cons t ts ih =>
      intro r
      rw [List.foldl_cons, ih]
      simp [Report.pushTrace]
  have ht := ht ts r
  rw [hr, List.nil_append] at ht
  have := trace_order _ out h (by rw [ht]; exact hne)
  rwa [ht] at this

/-- Two places of a source of two lines: the second one added comes first. -/
example : fmtTrace ([⟨⟨none, "f()\ng()".toList⟩, ⟨0, 1⟩⟩, ⟨⟨none, "f()\ng()".toList⟩, ⟨4, 5⟩⟩].foldl Report.pushTrace
    (Report.new "E3200".toList)) =
    some [[], "Trace:".toList, "  Location: <Script>:2:1".toList, "    2    | g()".toList, "  Location: <Script>:1:1".toList,
      "    1    | f()".toList] := by
  decide +kernel

/-- A report with a span outside the text and a trace. -/
example : ∃ out, fmtPretty Paint.plain ⟨fun _ _ => [], fun _ _ => []⟩
    (((Report.new "E3200".toList).withSource ⟨none, "é".toList⟩ |>.withSpan ⟨1, 9⟩).pushTrace
      ⟨⟨none, []⟩, ⟨0, 0⟩⟩) = some out :=
  (report_total _ _ _ (by decide) (by decide)).1

end Dice
