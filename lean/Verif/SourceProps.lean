import Verif.SourceLemmas

/-! # C02, C03, C04: source positions -/

namespace Dice

/-- C02 and C04: for every text and every byte offset, `position_of` returns the number of newlines
before the offset and the number of UTF-16 code units since the last newline.  The offset is written as
the byte length of the characters before it (`pre`) plus `k`, where `k` is `0` at a character boundary
and otherwise points inside the next character; past the end of the text `k` is arbitrary. -/
theorem position_of_exact (pre post : List Char) (k : Nat)
    (hk : post = [] ∨ ∃ c cs, post = c :: cs ∧ k < lenUtf8 c) :
    (LineIndex.new (pre ++ post)).positionOf (byteLen pre + k) =
      some ⟨pre.count '\n', utf16Len (lastLine pre) + k⟩ := by
  have hs := new_sorted (pre ++ post)
  have hpp := partitionPoint_sorted _ (fun it => decide (it ≤ byteLen pre + k)) hs
    (by intro a b hab hb; simp at *; omega)
  rw [countP_le_offset pre post k hk] at hpp
  unfold LineIndex.positionOf
  rw [hpp]
  have hstart : (LineIndex.new (pre ++ post)).newlines[pre.count '\n']? =
      some (byteLen pre - byteLen (lastLine pre)) := by
    rw [new_newlines, nlFrom_append, ← List.cons_append,
      List.getElem?_append_left (by simp [nlFrom_length])]
    exact line_start pre
  have hle := lastLine_le pre
  have h16 := utf16Len_le (lastLine pre)
  simp only [hstart]
  rw [if_pos (by omega)]
  have hcol : byteLen pre + k - (byteLen pre - byteLen (lastLine pre)) = byteLen (lastLine pre) + k := by
    omega
  rw [hcol]
  have hconv : (LineIndex.new (pre ++ post)).convertToUtf16Column (pre.count '\n')
      (byteLen (lastLine pre) + k) = some (utf16Len (lastLine pre) + k) := by
    unfold LineIndex.convertToUtf16Column
    rw [new_table_lookup]
    have hloop := utf16Loop_line (lastLine pre) post (lastLine_no_newline pre) k hk 0
      (byteLen (lastLine pre) + k) (by omega)
    rw [Nat.zero_add] at hloop
    unfold nonEmpty?
    split
    · next heq =>
      split at heq
      · simp at heq
      · simp only [Option.some.injEq] at heq
        subst heq
        rw [hloop]; congr 1; omega
    · next heq =>
      split at heq
      · next he =>
        rw [List.isEmpty_iff] at he
        rw [he] at hloop
        simp only [utf16Loop, Option.some.injEq] at hloop
        congr 1; omega
      · simp at heq
  rw [hconv]
  rfl

/-- The hypothesis of `position_of_exact` covers every offset of every text. -/
theorem position_of_covers (src : List Char) (off : Nat) : ∃ pre post k, src = pre ++ post ∧
    off = byteLen pre + k ∧ (post = [] ∨ ∃ c cs, post = c :: cs ∧ k < lenUtf8 c) :=
  offset_decompose src off

/-- C02: `position_of` never panics. -/
theorem position_of_total (src : List Char) (off : Nat) :
    ∃ p, (LineIndex.new src).positionOf off = some p := by
  obtain ⟨pre, post, k, rfl, rfl, h⟩ := offset_decompose src off
  exact ⟨_, position_of_exact pre post k h⟩

/-- C02: the reported line is monotone in the offset. -/
theorem position_of_line_monotone (src : List Char) (a b : Nat) (hab : a ≤ b) (pa pb : LineColumn)
    (ha : (LineIndex.new src).positionOf a = some pa) (hb : (LineIndex.new src).positionOf b = some pb) :
    pa.line ≤ pb.line := by
  have key : ∀ off p, (LineIndex.new src).positionOf off = some p →
      p.line + 1 = (LineIndex.new src).newlines.countP (fun it => decide (it ≤ off)) := by
    intro off p hp
    obtain ⟨pre, post, k, rfl, rfl, h⟩ := offset_decompose src off
    rw [position_of_exact pre post k h] at hp
    rw [countP_le_offset pre post k h]
    simp only [Option.some.injEq] at hp
    subst hp; rfl
  have h1 := key a pa ha
  have h2 := key b pb hb
  have : (LineIndex.new src).newlines.countP (fun it => decide (it ≤ a)) ≤
      (LineIndex.new src).newlines.countP (fun it => decide (it ≤ b)) :=
    List.countP_mono_left (by intro x _ hx; simp at *; omega)
  omega

/-- Instance: offset 11 of `abc\ndef\n♥♥♥` (the project's own test): line 2, column 1. -/
example : (LineIndex.new ("abc\ndef\n♥".toList ++ "♥♥".toList)).positionOf 11 = some ⟨2, 1⟩ :=
  position_of_exact "abc\ndef\n♥".toList "♥♥".toList 0
    (Or.inr ⟨'♥', ['♥'], rfl, lenUtf8_pos _⟩)

/-- C03: for every non-empty span inside the text, `lines` does not panic and lists exactly the
lines of the text that share a byte with the span, in order, each as its full byte range
including the final newline. -/
theorem lines_exact (src : List Char) (span : Span) (h1 : span.start < span.stop)
    (h2 : span.stop ≤ byteLen src) :
    (LineIndex.new src).lines span = some ((lineSpans 0 0 src).filter
      (fun l => decide (l.start < span.stop ∧ span.start < l.stop))) := by
  have hs := new_sorted src
  have hb : ∀ y ∈ (LineIndex.new src).newlines, y ≤ byteLen src := by
    rw [new_newlines]
    intro y hy
    rcases List.mem_cons.mp hy with rfl | hy
    · omega
    · have := nlFrom_bounds src 0 y hy; omega
  have hlen : (LineIndex.new src).utf8Len = byteLen src := rfl
  have hnl := new_newlines src
  unfold LineIndex.lines
  rw [partitionPoint_sorted _ (fun it => decide (it ≤ span.start)) hs
    (by intro a b hab hb; simp at *; omega)]
  rw [partitionPoint_sorted _ (fun it => decide (it < span.stop)) hs
    (by intro a b hab hb; simp at *; omega)]
  rw [hlen]
  have hsl := pairs_slice (byteLen src) span.start span.stop h1 h2 (nlFrom 0 src) 0
    (hnl ▸ hs) (hnl ▸ hb)
  have hspec : (lineSpans 0 0 src).filter
      (fun l => decide (l.start < span.stop ∧ span.start < l.stop)) =
      (pairsTo (byteLen src) (0 :: nlFrom 0 src)).filter
        (fun s => !s.isEmpty && decide (s.start < span.stop ∧ span.start < s.stop)) := by
    rw [lineSpans_pairs src 0 0 (Nat.le_refl 0), Nat.zero_add, List.filter_filter]
    congr 1; funext s; rw [Bool.and_comm]
  rw [hspec, hsl, ← hnl]
  generalize (LineIndex.new src).newlines = nl at *
  have hmono : nl.countP (fun it => decide (it ≤ span.start)) ≤
      nl.countP (fun it => decide (it < span.stop)) :=
    List.countP_mono_left (by intro x _ hx; simp at *; omega)
  have hst : ∀ n : Nat, (if n ≠ 0 then n - 1 else n) = n - 1 := by intro n; split <;> omega
  simp only [hst]
  cases hm : nl[nl.countP (fun it => decide (it < span.stop))]? with
  | some r =>
    simp only []
    rw [if_pos (by omega), zip_pairs]
  | none =>
    simp only []
    rw [if_pos (by omega), zip_pairs]

example : (LineIndex.new "abc\ndef\nghi\njkl".toList).lines ⟨4, 9⟩ = some [⟨4, 8⟩, ⟨8, 12⟩] := by
  rw [lines_exact _ ⟨4, 9⟩ (by decide) (by decide)]
  decide

/-- The specification lines tile the text: every byte lies in exactly one of them. -/
theorem lineSpans_tile (cs : List Char) : ∀ start cur, start ≤ cur →
    Consecutive (lineSpans start cur cs) ∧
    (∀ l ∈ lineSpans start cur cs, start ≤ l.start ∧ l.start < l.stop ∧ l.stop ≤ cur + byteLen cs) ∧
    (∀ l, (lineSpans start cur cs).head? = some l → l.start = start) ∧
    (∀ p, start ≤ p → p < cur + byteLen cs → ∃ l ∈ lineSpans start cur cs, l.start ≤ p ∧ p < l.stop) := by
  induction cs with
  | nil =>
    intro start cur h
    simp only [lineSpans, byteLen, Nat.add_zero]
    split
    · refine ⟨trivial, by simp; omega, by simp, ?_⟩
      intro p h1 h2
      exact ⟨_, List.mem_singleton.mpr rfl, h1, h2⟩
    · refine ⟨trivial, by simp, by simp, ?_⟩
      intro p h1 h2; omega
  | cons c cs ih =>
    intro start cur h
    have hc := lenUtf8_pos c
    simp only [lineSpans, byteLen]
    split
    · obtain ⟨i1, i2, i3, i4⟩ := ih (cur + lenUtf8 c) (cur + lenUtf8 c) (Nat.le_refl _)
      refine ⟨?_, ?_, by simp, ?_⟩
      · cases hl : lineSpans (cur + lenUtf8 c) (cur + lenUtf8 c) cs with
        | nil => trivial
        | cons l ls =>
          rw [hl] at i1 i3
          exact ⟨(i3 l rfl).symm, i1⟩
      · intro l hl
        rcases List.mem_cons.mp hl with rfl | hl
        · simp only []; omega
        · have := i2 l hl; omega
      · intro p h1 h2
        by_cases hp : p < cur + lenUtf8 c
        · exact ⟨_, List.mem_cons_self, h1, hp⟩
        · obtain ⟨l, hl, hl'⟩ := i4 p (by omega) (by omega)
          exact ⟨l, List.mem_cons_of_mem _ hl, hl'⟩
    · obtain ⟨i1, i2, i3, i4⟩ := ih start (cur + lenUtf8 c) (by omega)
      refine ⟨i1, fun l hl => by have := i2 l hl; omega, i3, fun p h1 h2 => i4 p h1 (by omega)⟩

/-- C03: the listed lines cover the whole span, each of them meets it and is non-empty, and they
follow each other without gaps. -/
theorem lines_cover (src : List Char) (span : Span) (h1 : span.start < span.stop)
    (h2 : span.stop ≤ byteLen src) :
    ∃ ls, (LineIndex.new src).lines span = some ls ∧
      (∀ p, span.start ≤ p → p < span.stop → ∃ l ∈ ls, l.start ≤ p ∧ p < l.stop) ∧
      (∀ l ∈ ls, l.start < l.stop ∧ ∃ p, l.start ≤ p ∧ p < l.stop ∧ span.start ≤ p ∧ p < span.stop) ∧
      ls.Sublist (lineSpans 0 0 src) := by
  obtain ⟨i1, i2, i3, i4⟩ := lineSpans_tile src 0 0 (Nat.le_refl 0)
  refine ⟨_, lines_exact src span h1 h2, ?_, ?_, List.filter_sublist⟩
  · intro p hp1 hp2
    obtain ⟨l, hl, hl1, hl2⟩ := i4 p (by omega) (by omega)
    refine ⟨l, List.mem_filter.mpr ⟨hl, ?_⟩, hl1, hl2⟩
    simp; omega
  · intro l hl
    rw [List.mem_filter] at hl
    have := i2 l hl.1
    have h := hl.2
    simp at h
    refine ⟨by omega, max l.start span.start, ?_⟩
    omega

/-- The code's behaviour on an empty span at the start of a line: no line is listed at all.  (Spans of
the end-of-input token are of this form when the text is empty or ends in a newline.) -/
theorem lines_empty_at_line_start :
    (LineIndex.new "a\n".toList).lines ⟨2, 2⟩ = some [] ∧ (LineIndex.new []).lines ⟨0, 0⟩ = some [] := by
  have e1 : (LineIndex.new "a\n".toList) = ⟨[0, 2], [], 2⟩ := by rfl
  have e2 : (LineIndex.new []) = ⟨[0], [], 0⟩ := by rfl
  rw [e1, e2]
  constructor <;> simp [LineIndex.lines, partitionPoint, bsearchLoop, Span.isEmpty]

/-- A text of two lines. -/
example : lineSpans 0 0 "ab\ncd".toList = [⟨0, 3⟩, ⟨3, 5⟩] := by decide +kernel

end Dice
