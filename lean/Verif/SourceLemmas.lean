import Verif.Source
import Verif.SourceSpec

/-! Helper lemmas about the line index model. -/

namespace Dice

theorem lenUtf8_pos (c : Char) : 0 < lenUtf8 c := Char.utf8Size_pos c

theorem byteLen_append (xs ys : List Char) : byteLen (xs ++ ys) = byteLen xs + byteLen ys := by
  induction xs with
  | nil => simp [byteLen]
  | cons c cs ih => simp [byteLen, ih]; omega

/-- The binary search returns the boundary `k` of the predicate. -/
theorem bsearchLoop_spec (xs : List Nat) (p : Nat → Bool) (k : Nat)
    (hq : ∀ i, (xs[i]?.map p).getD false = decide (i < k)) :
    ∀ size base, 1 ≤ size → (base = 0 ∨ base < k) → k ≤ base + size →
      (bsearchLoop xs p base size = 0 ∨ bsearchLoop xs p base size < k) ∧
        k ≤ bsearchLoop xs p base size + 1 := by
  intro size
  induction size using Nat.strongRecOn with
  | _ size ih =>
    intro base h1 hb hk
    unfold bsearchLoop
    split
    · exact ⟨hb, by omega⟩
    · simp only [hq]
      by_cases hm : base + size / 2 < k
      · simp only [hm, decide_true, if_true]
        exact ih (size - size / 2) (by omega) _ (by omega) (Or.inr hm) (by omega)
      · simp only [hm, decide_false, Bool.false_eq_true, if_false]
        exact ih (size - size / 2) (by omega) _ (by omega) hb (by omega)

theorem partitionPoint_eq (xs : List Nat) (p : Nat → Bool) (k : Nat) (hk : k ≤ xs.length)
    (hq : ∀ i, (xs[i]?.map p).getD false = decide (i < k)) : partitionPoint xs p = k := by
  unfold partitionPoint
  split
  · omega
  · have h := bsearchLoop_spec xs p k hq xs.length 0 (by omega) (Or.inl rfl) (by omega)
    simp only [hq]
    split
    · next hd => simp at hd; omega
    · next hd => simp at hd; omega

theorem sorted_boundary (xs : List Nat) (p : Nat → Bool) (hs : xs.Pairwise (· < ·))
    (hp : ∀ a b, a < b → p b = true → p a = true) :
    ∀ i, (xs[i]?.map p).getD false = decide (i < xs.countP p) := by
  induction xs with
  | nil => intro i; simp
  | cons x xs ih =>
    rw [List.pairwise_cons] at hs
    intro i
    cases hx : p x with
    | true =>
      cases i with
      | zero => simp [hx]
      | succ i =>
        have := ih hs.2 i
        simp [hx, this]
    | false =>
      have hz : xs.countP p = 0 := by
        rw [List.countP_eq_zero]
        intro a ha hpa
        have := hp x a (hs.1 a ha) hpa
        simp [this] at hx
      cases i with
      | zero => simp [hx, hz]
      | succ i =>
        have := ih hs.2 i
        simp [hx, this, hz]

theorem partitionPoint_sorted (xs : List Nat) (p : Nat → Bool) (hs : xs.Pairwise (· < ·))
    (hp : ∀ a b, a < b → p b = true → p a = true) : partitionPoint xs p = xs.countP p :=
  partitionPoint_eq xs p _ List.countP_le_length (sorted_boundary xs p hs hp)

/-- Byte offsets just after each newline, for a text starting at offset `row`. -/
def nlFrom (row : Nat) : List Char → List Nat
  | [] => []
  | c :: cs =>
    if c = '\n' then (row + lenUtf8 c) :: nlFrom (row + lenUtf8 c) cs else nlFrom (row + lenUtf8 c) cs

theorem foldl_newlines (cs : List Char) : ∀ s : ScanState,
    (cs.foldl ScanState.step s).newlines = s.newlines ++ nlFrom s.currentRow cs ∧
      (cs.foldl ScanState.step s).currentRow = s.currentRow + byteLen cs := by
  induction cs with
  | nil => intro s; simp [nlFrom, byteLen]
  | cons c cs ih =>
    intro s
    obtain ⟨h1, h2⟩ := ih (s.step c)
    rw [List.foldl_cons, h1, h2]
    simp only [nlFrom, byteLen, ScanState.step]
    split <;> simp <;> omega

theorem new_newlines (src : List Char) : (LineIndex.new src).newlines = 0 :: nlFrom 0 src := by
  simp [LineIndex.new, (foldl_newlines src {}).1]

theorem nlFrom_bounds (cs : List Char) : ∀ row, ∀ x ∈ nlFrom row cs, row < x ∧ x ≤ row + byteLen cs := by
  induction cs with
  | nil => intro row x hx; simp [nlFrom] at hx
  | cons c cs ih =>
    intro row x hx
    have hc := lenUtf8_pos c
    simp only [nlFrom] at hx
    simp only [byteLen]
    split at hx
    · rcases List.mem_cons.mp hx with rfl | hx
      · omega
      · have := ih _ x hx; omega
    · have := ih _ x hx; omega

theorem nlFrom_sorted (cs : List Char) : ∀ row, (nlFrom row cs).Pairwise (· < ·) := by
  induction cs with
  | nil => intro row; simp [nlFrom]
  | cons c cs ih =>
    intro row
    simp only [nlFrom]
    split
    · rw [List.pairwise_cons]
      exact ⟨fun a ha => (nlFrom_bounds cs _ a ha).1, ih _⟩
    · exact ih _

theorem new_sorted (src : List Char) : (LineIndex.new src).newlines.Pairwise (· < ·) := by
  rw [new_newlines, List.pairwise_cons]
  exact ⟨fun a ha => by have := nlFrom_bounds src 0 a ha; omega, nlFrom_sorted src 0⟩

theorem nlFrom_append (xs ys : List Char) : ∀ row,
    nlFrom row (xs ++ ys) = nlFrom row xs ++ nlFrom (row + byteLen xs) ys := by
  induction xs with
  | nil => intro row; simp [nlFrom, byteLen]
  | cons c cs ih =>
    intro row
    simp only [List.cons_append, nlFrom, byteLen, ih]
    split <;> simp [Nat.add_assoc]

theorem nlFrom_length (cs : List Char) : ∀ row, (nlFrom row cs).length = cs.count '\n' := by
  induction cs with
  | nil => intro row; simp [nlFrom]
  | cons c cs ih =>
    intro row
    simp only [nlFrom, List.count_cons]
    split <;> simp_all

theorem snoc_induction {α : Type} {P : List α → Prop} (nil : P [])
    (snoc : ∀ xs x, P xs → P (xs ++ [x])) : ∀ xs, P xs := by
  intro xs
  have h : ∀ ys : List α, P ys.reverse := by
    intro ys
    induction ys with
    | nil => simpa using nil
    | cons y ys ih => simpa using snoc _ y ih
  simpa using h xs.reverse

theorem lastLine_snoc (cs : List Char) (c : Char) :
    lastLine (cs ++ [c]) = if c = '\n' then [] else lastLine cs ++ [c] := by
  unfold lastLine
  by_cases h : c = '\n' <;> simp [h]

/-- Spans (in bytes, relative to the line start) of the non-ASCII characters up to the next newline. -/
def naFrom (col : Nat) : List Char → List Span
  | [] => []
  | c :: cs =>
    if c = '\n' then []
    else if c.val < 128 then naFrom (col + lenUtf8 c) cs
    else ⟨col, col + lenUtf8 c⟩ :: naFrom (col + lenUtf8 c) cs

theorem naFrom_append (xs ys : List Char) (h : '\n' ∉ xs) : ∀ col,
    naFrom col (xs ++ ys) = naFrom col xs ++ naFrom (col + byteLen xs) ys := by
  induction xs with
  | nil => intro col; simp [naFrom, byteLen]
  | cons c cs ih =>
    intro col
    simp only [List.mem_cons, not_or] at h
    have hc : ¬ c = '\n' := fun hh => h.1 hh.symm
    simp only [List.cons_append, naFrom, hc, if_false, byteLen, ih h.2]
    split <;> simp [Nat.add_assoc]

theorem lastLine_no_newline (cs : List Char) : '\n' ∉ lastLine cs := by
  intro h
  simp only [lastLine, List.mem_reverse] at h
  have := List.all_takeWhile (l := cs.reverse) (p := fun c => decide (c ≠ '\n'))
  rw [List.all_eq_true] at this
  have := this _ h
  simp at this

/-- The table of a state as it would be if the text ended here. -/
def ScanState.table (s : ScanState) : List (Nat × List Span) :=
  if s.utf16Characters.isEmpty then s.utf16Lines else (s.currentLine, s.utf16Characters) :: s.utf16Lines

theorem table_lookup_lt (cs : List Char) : ∀ (s : ScanState) (l : Nat), l < s.currentLine →
    (cs.foldl ScanState.step s).table.lookup l = s.utf16Lines.lookup l := by
  induction cs with
  | nil =>
    intro s l hl
    have hne : (l == s.currentLine) = false := by simp; omega
    cases he : s.utf16Characters.isEmpty <;> simp [ScanState.table, he, List.lookup, hne]
  | cons c cs ih =>
    intro s l hl
    rw [List.foldl_cons]
    by_cases hc : c = '\n'
    · rw [ih _ _ (by simp [ScanState.step, hc]; omega)]
      simp only [ScanState.step, hc, if_true]
      split
      · rfl
      · have : (l == s.currentLine) = false := by simp; omega
        simp [List.lookup, this]
    · rw [ih _ _ (by simp [ScanState.step, hc]; omega)]
      simp [ScanState.step, hc]

/-- `none` for the empty list, as in the table. -/
def nonEmpty? (xs : List Span) : Option (List Span) := if xs.isEmpty then none else some xs

theorem table_lookup_cur (cs : List Char) : ∀ (s : ScanState),
    (∀ p ∈ s.utf16Lines, p.1 < s.currentLine) →
    (cs.foldl ScanState.step s).table.lookup s.currentLine =
      nonEmpty? (s.utf16Characters ++ naFrom s.currentColumn cs) := by
  have hnone : ∀ (l : Nat) (xs : List (Nat × List Span)), (∀ p ∈ xs, p.1 < l) → xs.lookup l = none := by
    intro l xs h
    induction xs with
    | nil => rfl
    | cons p xs ih =>
      have h1 := h p (by simp)
      have : (l == p.1) = false := by simp; omega
      simp only [List.lookup, this]
      exact ih (fun q hq => h q (by simp [hq]))
  induction cs with
  | nil =>
    intro s hs
    cases he : s.utf16Characters.isEmpty
    · simp only [List.foldl_nil, ScanState.table, naFrom, List.append_nil, nonEmpty?, he]
      simp [List.lookup]
    · simp only [List.foldl_nil, ScanState.table, naFrom, List.append_nil, nonEmpty?, he, if_true]
      exact hnone _ _ hs
  | cons c cs ih =>
    intro s hs
    rw [List.foldl_cons]
    by_cases hc : c = '\n'
    · rw [table_lookup_lt cs (s.step c) s.currentLine (by simp [ScanState.step, hc])]
      simp only [ScanState.step, hc, if_true, naFrom, List.append_nil, nonEmpty?]
      split
      · exact hnone _ _ hs
      · simp [List.lookup]
    · have h := ih (s.step c) (by simpa [ScanState.step, hc] using hs)
      have hl : (s.step c).currentLine = s.currentLine := by simp [ScanState.step, hc]
      rw [hl] at h
      rw [h]
      simp only [ScanState.step, hc, if_false, naFrom]
      split <;> simp

/-- The scanner state after a prefix. -/
theorem scan_prefix (pre : List Char) :
    let s := pre.foldl ScanState.step {}
    s.currentLine = pre.count '\n' ∧ s.currentColumn = byteLen (lastLine pre) ∧
      s.utf16Characters = naFrom 0 (lastLine pre) ∧ (∀ p ∈ s.utf16Lines, p.1 < s.currentLine) := by
  induction pre using snoc_induction with
  | nil => simp [lastLine, byteLen, naFrom]
  | snoc xs c ih =>
    obtain ⟨h1, h2, h3, h4⟩ := ih
    simp only [List.foldl_append, List.foldl_cons, List.foldl_nil]
    generalize xs.foldl ScanState.step {} = s at *
    rw [lastLine_snoc]
    by_cases hc : c = '\n'
    · simp only [ScanState.step, hc, if_true]
      refine ⟨by simp [h1], by simp [byteLen], by simp [naFrom], ?_⟩
      intro p hp
      split at hp
      · have := h4 p hp; omega
      · rcases List.mem_cons.mp hp with rfl | hp
        · simp
        · have := h4 p hp; omega
    · simp only [ScanState.step, hc, if_false]
      refine ⟨?_, ?_, ?_, h4⟩
      · simp [h1, List.count_cons, hc]
      · simp [byteLen_append, byteLen, h2]
      · rw [naFrom_append _ _ (lastLine_no_newline xs)]
        simp only [naFrom, hc, if_false, h3, h2, Nat.zero_add]
        split <;> simp

theorem new_table_lookup (pre post : List Char) :
    (LineIndex.new (pre ++ post)).utf16Lines.lookup (pre.count '\n') =
      nonEmpty? (naFrom 0 (lastLine pre ++ post)) := by
  obtain ⟨h1, h2, h3, h4⟩ := scan_prefix pre
  have h := table_lookup_cur post (pre.foldl ScanState.step {}) h4
  rw [h1, h2, h3] at h
  rw [naFrom_append _ _ (lastLine_no_newline pre), Nat.zero_add, ← h]
  simp [LineIndex.new, ScanState.table, List.foldl_append]

theorem lenUtf8_cases (c : Char) :
    (c.val < 128 ∧ lenUtf8 c = 1) ∨ (¬ c.val < 128 ∧ c.val < 0x10000 ∧ (lenUtf8 c = 2 ∨ lenUtf8 c = 3)) ∨
      (¬ c.val < 128 ∧ ¬ c.val < 0x10000 ∧ lenUtf8 c = 4) := by
  unfold lenUtf8 Char.utf8Size
  simp only [UInt32.lt_iff_toNat_lt, UInt32.le_iff_toNat_le]
  simp only [UInt32.toNat_ofNatLT, UInt32.reduceToNat]
  split
  · left; omega
  · split
    · right; left; omega
    · split
      · right; left; omega
      · right; right; omega

theorem utf16Len_le (cs : List Char) : utf16Len cs ≤ byteLen cs := by
  induction cs with
  | nil => simp [utf16Len, byteLen]
  | cons c cs ih =>
    simp only [utf16Len, byteLen]
    have := lenUtf8_pos c
    rcases lenUtf8_cases c with ⟨h, h'⟩ | ⟨_, h, h' | h'⟩ | ⟨_, h, h'⟩
    · have : c.val < 0x10000 := by
        simp only [UInt32.lt_iff_toNat_lt, UInt32.reduceToNat] at *
        omega
      simp only [this, if_true]; omega
    all_goals simp only [h, if_true, if_false]; omega

theorem utf16OfLen_spec (c : Char) (h : ¬ c.val < 128) :
    utf16OfLen (lenUtf8 c) = (if c.val < 0x10000 then 1 else 2) := by
  rcases lenUtf8_cases c with ⟨h1, h'⟩ | ⟨_, h1, h' | h'⟩ | ⟨_, h1, h'⟩
  · exact absurd h1 h
  all_goals simp [utf16OfLen, h', h1]

theorem utf16Loop_stop (col : Nat) (cs : List Char) (r : Nat) :
    ∀ base, col < base → utf16Loop col r (naFrom base cs) = some r := by
  induction cs with
  | nil => intro base h; simp [naFrom, utf16Loop]
  | cons c cs ih =>
    intro base h
    simp only [naFrom]
    split
    · simp [utf16Loop]
    · split
      · exact ih _ (by omega)
      · simp [utf16Loop]; omega

theorem utf16Loop_line (line post : List Char) (hl : '\n' ∉ line) (k : Nat)
    (hk : post = [] ∨ ∃ c cs, post = c :: cs ∧ k < lenUtf8 c) :
    ∀ base r, byteLen line - utf16Len line ≤ r →
      utf16Loop (base + byteLen line + k) r (naFrom base (line ++ post)) =
        some (r - (byteLen line - utf16Len line)) := by
  induction line with
  | nil =>
    intro base r _
    simp only [byteLen, utf16Len, List.nil_append]
    rcases hk with rfl | ⟨c, cs, rfl, hk⟩
    · simp [naFrom, utf16Loop]
    · simp only [naFrom]
      split
      · simp [utf16Loop]
      · split
        · rw [utf16Loop_stop _ _ _ _ (by omega)]; simp
        · have hn : ¬ (base + lenUtf8 c ≤ base + 0 + k) := by omega
          simp only [utf16Loop, hn, if_false]
          simp
  | cons c cs ih =>
    intro base r hr
    simp only [List.mem_cons, not_or] at hl
    have hc : ¬ c = '\n' := fun hh => hl.1 hh.symm
    have hcs := utf16Len_le cs
    simp only [List.cons_append, naFrom, hc, if_false, byteLen, utf16Len] at *
    have e : base + (lenUtf8 c + byteLen cs) + k = (base + lenUtf8 c) + byteLen cs + k := by omega
    split
    · next ha =>
      have ha' : c.val < 0x10000 := by
        rcases lenUtf8_cases c with ⟨_, _⟩ | ⟨h, _⟩ | ⟨h, _⟩
        · simp only [UInt32.lt_iff_toNat_lt, UInt32.reduceToNat] at *
          omega
        · exact absurd ha h
        · exact absurd ha h
      have h1 : lenUtf8 c = 1 := by
        rcases lenUtf8_cases c with ⟨_, h⟩ | ⟨h, _⟩ | ⟨h, _⟩
        · exact h
        · exact absurd ha h
        · exact absurd ha h
      simp only [ha', if_true, h1] at hr ⊢
      have e' : base + (1 + byteLen cs) + k = (base + 1) + byteLen cs + k := by omega
      rw [e', ih hl.2 (base + 1) r (by omega)]
      congr 1; omega
    · next ha =>
      have hs := utf16OfLen_spec c ha
      have hle : utf16OfLen (lenUtf8 c) ≤ lenUtf8 c := by
        rcases lenUtf8_cases c with ⟨h, _⟩ | ⟨_, _, h | h⟩ | ⟨_, _, h⟩
        · exact absurd h ha
        all_goals simp [h, utf16OfLen]
      rw [e]
      simp only [utf16Loop, Span.len]
      rw [if_pos (by omega), if_pos (by omega)]
      have e2 : base + lenUtf8 c - base = lenUtf8 c := by omega
      simp only [e2]
      rw [← hs] at hr ⊢
      rw [if_pos ⟨hle, by omega⟩]
      rw [ih hl.2 (base + lenUtf8 c) _ (by omega)]
      congr 1; omega

theorem lastLine_le (cs : List Char) : byteLen (lastLine cs) ≤ byteLen cs := by
  induction cs using snoc_induction with
  | nil => simp [lastLine, byteLen]
  | snoc xs c ih =>
    rw [lastLine_snoc, byteLen_append]
    split
    · simp [byteLen]
    · rw [byteLen_append]; omega

theorem line_start (pre : List Char) :
    (0 :: nlFrom 0 pre)[pre.count '\n']? = some (byteLen pre - byteLen (lastLine pre)) := by
  induction pre using snoc_induction with
  | nil => simp [nlFrom, byteLen]
  | snoc xs c ih =>
    have hle := lastLine_le xs
    rw [lastLine_snoc, byteLen_append, nlFrom_append, ← List.cons_append]
    by_cases hc : c = '\n'
    · have hlen : (0 :: nlFrom 0 xs).length = xs.count '\n' + 1 := by simp [nlFrom_length]
      simp only [hc, if_true, nlFrom, byteLen]
      rw [List.getElem?_append_right (by rw [hlen]; simp)]
      rw [hlen]
      simp
    · have : (xs ++ [c]).count '\n' = xs.count '\n' := by simp [hc]
      rw [this]
      simp only [nlFrom, hc, if_false, List.append_nil, ih, byteLen_append]
      congr 1; omega

theorem countP_le_offset (pre post : List Char) (k : Nat)
    (hk : post = [] ∨ ∃ c cs, post = c :: cs ∧ k < lenUtf8 c) :
    (LineIndex.new (pre ++ post)).newlines.countP (fun it => decide (it ≤ byteLen pre + k)) =
      pre.count '\n' + 1 := by
  rw [new_newlines, nlFrom_append, ← List.cons_append, List.countP_append]
  have h1 : (0 :: nlFrom 0 pre).countP (fun it => decide (it ≤ byteLen pre + k)) = pre.count '\n' + 1 := by
    rw [List.countP_eq_length.mpr]
    · simp [nlFrom_length]
    · intro a ha
      rcases List.mem_cons.mp ha with rfl | ha
      · simp
      · have := nlFrom_bounds pre 0 a ha; simp; omega
  have h2 : (nlFrom (0 + byteLen pre) post).countP (fun it => decide (it ≤ byteLen pre + k)) = 0 := by
    rw [List.countP_eq_zero]
    intro a ha
    rcases hk with rfl | ⟨c, cs, rfl, hk⟩
    · simp [nlFrom] at ha
    · simp only [nlFrom] at ha
      split at ha
      · rcases List.mem_cons.mp ha with rfl | ha
        · simp; omega
        · have := nlFrom_bounds cs _ a ha; simp; omega
      · have := nlFrom_bounds cs _ a ha; simp; omega
  omega

theorem offset_decompose (src : List Char) : ∀ off, ∃ pre post k, src = pre ++ post ∧
    off = byteLen pre + k ∧ (post = [] ∨ ∃ c cs, post = c :: cs ∧ k < lenUtf8 c) := by
  induction src with
  | nil => intro off; exact ⟨[], [], off, rfl, by simp [byteLen], Or.inl rfl⟩
  | cons c cs ih =>
    intro off
    by_cases h : off < lenUtf8 c
    · exact ⟨[], c :: cs, off, rfl, by simp [byteLen], Or.inr ⟨c, cs, rfl, h⟩⟩
    · obtain ⟨pre, post, k, rfl, h2, h3⟩ := ih (off - lenUtf8 c)
      exact ⟨c :: pre, post, k, rfl, by simp [byteLen]; omega, h3⟩

/-- Consecutive pairs of a list of line starts, closed by `fin`. -/
def pairsTo (fin : Nat) : List Nat → List Span
  | [] => []
  | [x] => [⟨x, fin⟩]
  | x :: y :: rest => ⟨x, y⟩ :: pairsTo fin (y :: rest)

theorem zip_pairs (fin : Nat) : ∀ l : List Nat,
    ((l ++ [fin]).zip ((l ++ [fin]).drop 1)).map (fun p => (⟨p.1, p.2⟩ : Span)) = pairsTo fin l := by
  intro l
  induction l with
  | nil => simp [pairsTo]
  | cons x l ih =>
    cases l with
    | nil => simp [pairsTo]
    | cons y rest =>
      simp only [pairsTo]
      rw [← ih]
      simp

theorem lineSpans_pairs (cs : List Char) : ∀ start cur,
    start ≤ cur →
    lineSpans start cur cs = (pairsTo (cur + byteLen cs) (start :: nlFrom cur cs)).filter (fun s => !s.isEmpty) := by
  induction cs with
  | nil =>
    intro start cur h
    simp only [lineSpans, nlFrom, pairsTo, byteLen, Nat.add_zero]
    by_cases he : start = cur
    · simp [he, Span.isEmpty]
    · have : start < cur := by omega
      simp [this, Span.isEmpty, he]
  | cons c cs ih =>
    intro start cur h
    have hc := lenUtf8_pos c
    simp only [lineSpans, nlFrom, byteLen]
    split
    · simp only [pairsTo]
      rw [List.filter_cons_of_pos (by simp [Span.isEmpty]; omega), ih _ _ (Nat.le_refl _)]
      simp [Nat.add_assoc]
    · rw [ih _ _ (by omega)]
      simp [Nat.add_assoc]

/-- The filter of a sorted chain of lines by an interval is a slice. -/
theorem pairs_slice (fin a b : Nat) (hab : a < b) (hb : b ≤ fin) :
    ∀ (l : List Nat) (x : Nat), (x :: l).Pairwise (· < ·) → (∀ y ∈ x :: l, y ≤ fin) →
    (pairsTo fin (x :: l)).filter (fun s => !s.isEmpty && decide (s.start < b ∧ a < s.stop)) =
      (pairsTo
        (match (x :: l)[(x :: l).countP (fun it => decide (it < b))]? with | some r => r | none => fin)
        (((x :: l).take (match (x :: l)[(x :: l).countP (fun it => decide (it < b))]? with
          | some _ => (x :: l).countP (fun it => decide (it < b)) + 1
          | none => (x :: l).countP (fun it => decide (it < b)))).drop
            ((x :: l).countP (fun it => decide (it ≤ a)) - 1))).filter (fun s => !s.isEmpty) := by
  intro l
  induction l with
  | nil =>
    intro x hs hf
    have hx := hf x (by simp)
    by_cases h1 : x < b
    · have h3 : x ≠ fin := by omega
      have h4 : a < fin := by omega
      by_cases h2 : x ≤ a <;> simp [h1, h2, h3, h4, pairsTo, Span.isEmpty]
    · have h2 : ¬ x ≤ a := by omega
      simp [h1, h2, pairsTo, Span.isEmpty]
  | cons y rest ih =>
    intro x hs hf
    have hxy : x < y := (List.pairwise_cons.mp hs).1 y (by simp)
    have hs' := (List.pairwise_cons.mp hs).2
    have hf' : ∀ z ∈ y :: rest, z ≤ fin := fun z hz => hf z (by simp [hz])
    have ih' := ih y hs' hf'
    simp only [pairsTo]
    by_cases h1 : x < b
    · -- the first line starts before `b`
      have hcb : (x :: y :: rest).countP (fun it => decide (it < b)) =
          (y :: rest).countP (fun it => decide (it < b)) + 1 := by
        rw [List.countP_cons]; simp [h1]
      rw [hcb]
      simp only [List.getElem?_cons_succ]
      by_cases h2 : y ≤ a
      · -- the first line is wholly before the span
        have hx : x ≤ a := by omega
        have hca : (x :: y :: rest).countP (fun it => decide (it ≤ a)) =
            (y :: rest).countP (fun it => decide (it ≤ a)) + 1 := by
          rw [List.countP_cons]; simp [hx]
        have hca1 : (y :: rest).countP (fun it => decide (it ≤ a)) =
            (rest).countP (fun it => decide (it ≤ a)) + 1 := by
          rw [List.countP_cons]; simp [h2]
        rw [List.filter_cons_of_neg (by simp; omega), ih', hca, hca1]
        cases hm : (y :: rest)[(y :: rest).countP (fun it => decide (it < b))]? with
        | none => simp
        | some r => simp
      · -- the first line meets the span
        have hca : (x :: y :: rest).countP (fun it => decide (it ≤ a)) - 1 = 0 := by
          rw [List.countP_cons]
          have : (y :: rest).countP (fun it => decide (it ≤ a)) = 0 := by
            rw [List.countP_eq_zero]
            intro z hz
            rcases List.mem_cons.mp hz with rfl | hz
            · simp; omega
            · have := (List.pairwise_cons.mp hs').1 z hz; simp; omega
          rw [this]; split <;> simp
        have hca' : (y :: rest).countP (fun it => decide (it ≤ a)) = 0 := by
          rw [List.countP_eq_zero]
          intro z hz
          rcases List.mem_cons.mp hz with rfl | hz
          · simp; omega
          · have := (List.pairwise_cons.mp hs').1 z hz; simp; omega
        rw [hca]
        rw [hca'] at ih'
        rw [List.filter_cons_of_pos (by simp [Span.isEmpty]; omega), ih']
        by_cases hyb : y < b
        · have hcy : (y :: rest).countP (fun it => decide (it < b)) =
              rest.countP (fun it => decide (it < b)) + 1 := by rw [List.countP_cons]; simp [hyb]
          rw [hcy]
          simp only [List.getElem?_cons_succ]
          cases hm : rest[rest.countP (fun it => decide (it < b))]? with
          | none =>
            simp only [List.take_succ_cons, List.drop_zero, Nat.zero_sub, pairsTo]
            rw [List.filter_cons_of_pos (by simp [Span.isEmpty]; omega)]
          | some r =>
            simp only [List.take_succ_cons, List.drop_zero, Nat.zero_sub, pairsTo]
            rw [List.filter_cons_of_pos (by simp [Span.isEmpty]; omega)]
        · have hcy : (y :: rest).countP (fun it => decide (it < b)) = 0 := by
            rw [List.countP_eq_zero]
            intro z hz
            rcases List.mem_cons.mp hz with rfl | hz
            · simp; omega
            · have := (List.pairwise_cons.mp hs').1 z hz; simp; omega
          rw [hcy]
          have h3 : x ≠ y := by omega
          simp [pairsTo, Span.isEmpty, h3]
    · -- every line starts at or after `b`
      have hcb : (x :: y :: rest).countP (fun it => decide (it < b)) = 0 := by
        rw [List.countP_eq_zero]
        intro z hz
        rcases List.mem_cons.mp hz with rfl | hz
        · simp; omega
        · have := (List.pairwise_cons.mp hs).1 z hz; simp; omega
      have hcb' : (y :: rest).countP (fun it => decide (it < b)) = 0 := by
        rw [List.countP_eq_zero]
        intro z hz
        have := (List.pairwise_cons.mp hs).1 z hz; simp; omega
      have hca : ∀ z ∈ x :: y :: rest, ¬ z ≤ a := by
        intro z hz
        rcases List.mem_cons.mp hz with rfl | hz
        · omega
        · have := (List.pairwise_cons.mp hs).1 z hz; omega
      have hca0 : (x :: y :: rest).countP (fun it => decide (it ≤ a)) = 0 := by
        rw [List.countP_eq_zero]; intro z hz; simpa using hca z hz
      have hca1 : (y :: rest).countP (fun it => decide (it ≤ a)) = 0 := by
        rw [List.countP_eq_zero]; intro z hz; simpa using hca z (by simp [hz])
      rw [hcb, hca0]
      rw [hcb', hca1] at ih'
      rw [List.filter_cons_of_neg (by simp; omega), ih']
      simp [pairsTo, Span.isEmpty]

end Dice
