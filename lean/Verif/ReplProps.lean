import Verif.Repl
import Verif.Respace
import Verif.NoErrorTokens

/-!
# Lines continued with a backslash (C69)

The marks at the ends of the lines are left in the text, where `\ … \` is the notation of a call with one argument.
-/

namespace Dice.Repl

/-- A line as it is typed: no white space at its end, and then the line break. -/
def Line (space : Char → Bool) (l : List Char) : Prop := ∀ c, l.getLast? = some c → space c = false

theorem trimEnd_line {space : Char → Bool} (hn : space '\n' = true) {l : List Char} (h : Line space l) :
    trimEnd space (l ++ ['\n']) = l := by
  unfold trimEnd
  rw [List.reverse_append, List.reverse_singleton, List.singleton_append, List.dropWhile_cons, if_pos hn]
  cases hr : l.reverse with
  | nil =>
    rw [List.reverse_eq_nil_iff] at hr
    subst hr
    rfl
  | cons c cs =>
    have hl : l = cs.reverse ++ [c] := by rw [← List.reverse_reverse l, hr, List.reverse_cons]
    have hc : space c = false := h c (by rw [hl]; simp)
    rw [List.dropWhile_cons, if_neg (by simp [hc]), ← hr, List.reverse_reverse]

/-- **C69.**  The text that is run: the lines, with their marks. -/
theorem input_text {space : Char → Bool} (hn : space '\n' = true) (hb : space '\\' = false) {last : List Char}
    (hl : Line space last) (hm : last.getLast? ≠ some '\\') (rest : List (List Char)) :
    ∀ first : List (List Char),
      readInput space (first.map (fun l => l ++ ['\\', '\n']) ++ (last ++ ['\n']) :: rest) =
        ((first.map fun l => l ++ ['\\', '\n']).flatten ++ last ++ ['\n'], rest)
  | [] => by
    simp only [List.map_nil, List.nil_append, readInput, trimEnd_line hn hl, List.flatten_nil]
    rw [if_neg hm]
  | l :: first => by
    have h1 : trimEnd space (l ++ ['\\', '\n']) = l ++ ['\\'] := by
      have := trimEnd_line hn (l := l ++ ['\\']) (by intro c hc; simp at hc; exact hc ▸ hb)
      simpa using this
    simp only [List.map_cons, List.cons_append, readInput, h1, input_text hn hb hl hm rest first]
    rw [if_pos (by simp)]
    simp

/-! ## The tokens before a backslash -/

/-- No comment begins in the text. -/
def NoComment (a : List Char) : Prop := ∀ u v, a ≠ u ++ '/' :: '/' :: v

theorem NoComment.tail {u a : List Char} (h : NoComment (u ++ a)) : NoComment a :=
  fun v w e => h (u ++ v) w (by rw [e, List.append_assoc])

theorem backslash_words : ∀ q ∈ patterns, q.1 = .ident ∨ q.1 = .integer ∨ q.1 = .float ∨ q.1 = .blank ∨ q.1 = .comment ∨
    q.1 = .lit ['\\'] ∨ ∃ s, q.1 = .lit s ∧ '\\' ∉ s := by
  have h : ∀ q ∈ patterns, (match q.1 with
      | .lit s => decide (s = ['\\']) || !s.contains '\\'
      | _ => true) = true := by decide +kernel
  intro q hq
  have := h q hq
  cases hp : q.1 with
  | lit s =>
    rw [hp] at this
    simp only [Bool.or_eq_true, decide_eq_true_eq, Bool.not_eq_true', List.contains_eq_mem, decide_eq_false_iff_not] at this
    rcases this with rfl | this
    · simp
    · simp [this]
  | _ => simp

theorem matches_backslash {q : Pat × Act} (hq : q ∈ patterns) {v : List Char} (h : q.1.Matches v) (hb : '\\' ∈ v) :
    v = ['\\'] ∨ ∃ b, v = '/' :: '/' :: b := by
  rcases backslash_words q hq with e | e | e | e | e | e | ⟨s, e, hs⟩ <;> rw [e] at h
  · obtain ⟨c, cs, rfl, h1, h2⟩ := h
    rcases List.mem_cons.1 hb with rfl | hb
    · exact absurd h1 (by decide)
    · exact absurd (h2 _ hb) (by decide)
  · exact absurd (h.2 _ hb) (by decide)
  · obtain ⟨a, b, rfl, -, -, h1, h2⟩ := h
    rcases List.mem_append.1 hb with hb | hb
    · exact absurd (h1 _ hb) (by decide)
    · rcases List.mem_cons.1 hb with hb | hb
      · exact absurd hb (by decide)
      · exact absurd (h2 _ hb) (by decide)
  · exact absurd (h.2 _ hb) (by decide)
  · obtain ⟨b, rfl, -⟩ := h
    exact .inr ⟨b, rfl⟩
  · exact .inl h
  · rw [show v = s from h] at hb
    exact absurd hb hs

theorem apart_backslash {t : Token} (ht : Spelled t) {cs r : List Char} (ha : Apart t.text.toList cs)
    (hc : NoComment (t.text.toList ++ cs)) : Apart t.text.toList (cs ++ '\\' :: r) := by
  obtain ⟨c, ds, e, -⟩ := spelled_text ht
  intro q hq v s hv hm
  by_cases hl : v.length ≤ (t.text.toList ++ cs).length
  · rw [← List.append_assoc] at hv
    have : ∃ s', t.text.toList ++ cs = v ++ s' := by
      rcases List.append_eq_append_iff.1 hv with ⟨a, h1, h2⟩ | ⟨a, h1, h2⟩
      · have : a = [] := by
          rw [h1, List.length_append] at hl
          exact List.length_eq_zero_iff.1 (by omega)
        exact ⟨[], by rw [h1, this]; simp⟩
      · exact ⟨a, h1⟩
    obtain ⟨s', h'⟩ := this
    exact ha q hq v s' h' hm
  · exfalso
    rw [← List.append_assoc] at hv
    rcases List.append_eq_append_iff.1 hv with ⟨a, h1, h2⟩ | ⟨a, h1, h2⟩
    · cases a with
      | nil => rw [List.append_nil] at h1; rw [h1] at hl; exact hl (Nat.le_refl _)
      | cons x a =>
        injection h2 with h2 _
        subst h2
        rcases matches_backslash hq hm (by rw [h1]; simp) with h3 | ⟨b, h3⟩
        · rw [h3, e] at h1
          have := congrArg List.length h1
          simp at this
        · rw [h3] at h1
          generalize ht' : t.text.toList ++ cs = u at h1 hc
          match u, h1 with
          | [], _ => rw [e] at ht'; cases ht'
          | [c], h1 =>
            injection h1 with _ h1
            injection h1 with h1 _
            exact absurd h1 (by decide)
          | c :: d :: u, h1 =>
            injection h1 with h0 h1
            injection h1 with h1 _
            exact hc [] u (by rw [← h0, ← h1]; rfl)
    · rw [h1, List.length_append] at hl
      omega

/-- Before a backslash the tokens are those of the text alone. -/
theorem tokens_before (r : List Char) (n : Nat) : ∀ (pos : Nat) (ts : List Token) (a : List Char),
    (a ++ '\\' :: r).length ≤ n → Written ts a → NoComment a →
    ∃ n' pos', ('\\' :: r).length ≤ n' ∧
      (tokens n pos (a ++ '\\' :: r)).map (·.item) = ts.map .ok ++ (tokens n' pos' ('\\' :: r)).map (·.item) := by
  induction n with
  | zero =>
    intro pos ts a hn
    simp at hn
  | succ n ih =>
    intro pos ts a hn h hc
    cases h with
    | nil => exact ⟨n + 1, pos, hn, rfl⟩
    | @blank b _ ds hb h =>
      have htw : (ds ++ '\\' :: r).takeWhile isBlank = ds.takeWhile isBlank := by
        clear hn h hc
        induction ds with
        | nil => rfl
        | cons d ds ih =>
          rw [List.cons_append, List.takeWhile_cons, List.takeWhile_cons]
          split
          · rw [ih]
          · rfl
      have hdrop : (ds ++ '\\' :: r).drop ((ds ++ '\\' :: r).takeWhile isBlank).length =
          ds.drop (ds.takeWhile isBlank).length ++ '\\' :: r := by
        rw [htw, List.drop_append_of_le_length (List.takeWhile_sublist _).length_le]
      rw [List.cons_append, tokens]
      · simp only [scan_blank hb, List.drop_succ_cons, hdrop]
        refine ih _ _ _ ?_ h.dropBlanks ?_
        · simp only [List.length_cons, List.length_drop, List.length_append] at hn ⊢
          omega
        · have := hc.tail (u := [b]) (a := ds)
          rw [← List.take_append_drop (ds.takeWhile isBlank).length ds] at this
          exact this.tail
      · simp
    | @comment body _ ds => exact absurd rfl (hc [] _)
    | @token t ts ds h ha hds =>
      obtain ⟨c, es, e, -⟩ := spelled_text h
      have hs := scan_apart h (apart_backslash (r := r) h ha hc)
      obtain ⟨n', pos', h1, h2⟩ := ih (pos + byteLength t.text.toList) ts ds
        (by rw [e] at hn; simp at hn ⊢; omega) hds hc.tail
      refine ⟨n', pos', h1, ?_⟩
      rw [List.append_assoc]
      rw [e] at hs ⊢
      rw [e] at h2
      rw [List.cons_append] at hs ⊢
      rw [tokens]
      · simp only [hs]
        rw [← List.cons_append, List.take_left, List.drop_left, List.map_cons, h2, ← e, String.ofList_toList]
        rfl
      · simp

/-! ## Two lines -/

theorem lexBackslashArg_none {cs : List Char} (h : '\\' ∉ cs) : lexBackslashArg cs = none := by
  induction cs with
  | nil => rfl
  | cons c cs ih =>
    have hc : c ≠ '\\' := fun e => h (e ▸ List.mem_cons_self)
    rw [lexBackslashArg]
    · rw [ih fun h' => h (List.mem_cons_of_mem _ h')]; rfl
    · exact hc

/-- A backslash without another one after it is an error token. -/
theorem scan_lone {r : List Char} (h : '\\' ∉ r) : scan ('\\' :: r) = ⟨1, some (.ok .error)⟩ := by
  have hm : longestMatch ('\\' :: r) patterns = some (1, .lexBackslashArg) := by
    rw [longestMatch_start,
      show patterns.filter (startsWith '\\') = [(.lit ['\\'], .lexBackslashArg)] by decide +kernel]
    rfl
  unfold scan
  rw [hm]
  dsimp only
  rw [List.drop_succ_cons, List.drop_zero, lexBackslashArg_none h]

/-- **C69**, refuted: a first line without a comment that is continued by a line without a backslash is rejected, whatever
the two lines are, unless a closing brace that closes nothing hides the rest. -/
theorem two_lines_rejected {space : Char → Bool} (hn : space '\n' = true) (hb : space '\\' = false) {ts : List Token}
    {first second : List Char} (hf : Written ts first) (hc : NoComment first)
    (hs : ∀ us c vs, ts = us ++ c :: vs → c.kind = .rightCurly → ¬ Grammar.Balanced us)
    (hl : Line space second) (hm : '\\' ∉ second) (rest : List (List Char)) (e : Expr) :
    parseInput space ((first ++ ['\\', '\n']) :: (second ++ ['\n']) :: rest) ≠ .ok e := by
  intro hp
  have ht := input_text hn hb hl (fun h => hm (List.mem_of_getLast? h)) rest [first]
  simp only [List.map_cons, List.map_nil, List.cons_append, List.nil_append, List.flatten_cons, List.flatten_nil, List.append_nil] at ht
  unfold parseInput at hp
  rw [ht] at hp
  have hlone : '\\' ∉ '\n' :: (second ++ ['\n']) := by simp [hm]
  obtain ⟨n, pos, h1, h2⟩ := tokens_before ('\n' :: (second ++ ['\n'])) _ 0 ts first (Nat.le_refl _) hf hc
  have h3 : ∃ more, (tokens n pos ('\\' :: '\n' :: (second ++ ['\n']))).map (·.item) = .ok ⟨.error, "\\"⟩ :: more := by
    cases n with
    | zero => simp at h1
    | succ n =>
      rw [tokens]
      · simp only [scan_lone hlone, List.map_cons]
        exact ⟨_, rfl⟩
      · simp
  obtain ⟨more, h3⟩ := h3
  have htok : (tokenize (first ++ ['\\', '\n'] ++ second ++ ['\n'])).map (·.item) = ts.map .ok ++ .ok ⟨.error, "\\"⟩ :: more := by
    have e : first ++ ['\\', '\n'] ++ second ++ ['\n'] = first ++ '\\' :: '\n' :: (second ++ ['\n']) := by simp
    rw [e]
    exact h2.trans (by rw [h3])
  unfold Parser.parseSource at hp
  rw [String.toList_ofList, htok] at hp
  obtain ⟨es, us, tl, f, t, k1, hw, kt, kk, kf, rfl⟩ := Parser.parse_iff.1 hp
  have hcl := hw.clean
  have key : ∀ (us ts : List Token) (tl : Parser.Input), Grammar.Clean us →
      ts.map Except.ok ++ .ok ⟨.error, "\\"⟩ :: more = us.map .ok ++ tl →
      ∃ vs, ts = us ++ vs ∧ tl = vs.map .ok ++ .ok ⟨.error, "\\"⟩ :: more := by
    intro us
    induction us with
    | nil => exact fun ts tl _ h => ⟨ts, rfl, h.symm⟩
    | cons u us ih =>
      intro ts tl hcl h
      cases ts with
      | nil =>
        injection h with h _
        injection h with h
        exact absurd (h ▸ rfl) (hcl u List.mem_cons_self)
      | cons t ts =>
        injection h with h h'
        injection h with h
        obtain ⟨vs, e1, e2⟩ := ih ts tl (fun x hx => hcl x (List.mem_cons_of_mem _ hx)) h'
        exact ⟨vs, by rw [h, e1]; rfl, e2⟩
  obtain ⟨vs, rfl, rfl⟩ := key us ts tl hcl k1
  cases vs with
  | nil =>
    cases kt
    rcases kk with kk | kk <;> cases kk
  | cons v vs =>
    cases kt
    rcases kk with kk | kk
    · have hm : (Except.ok t : Except LexErr Token) ∈ (tokenize first).map (·.item) := by rw [lex_written hf]; simp
      obtain ⟨l, hl, e⟩ := List.mem_map.1 hm
      exact Grammar.tokens_noEnd _ _ _ l hl t e kk
    · exact hs us t vs rfl kk hw.balanced

/-- `1 + \` and `2` are two such lines. -/
example : Written [⟨.integer, "1"⟩, ⟨.plus, "+"⟩] "1 + ".toList ∧ NoComment "1 + ".toList :=
  ⟨lexed_iff.1 ⟨by kernel_rfl, by decide⟩, fun u v e => absurd (show '/' ∈ "1 + ".toList by rw [e]; simp) (by decide)⟩

/-! ## Three lines -/

/-- **C69**, refuted: with two marks everything from the first to the second is one token, the argument of a call. -/
theorem three_lines_tokens {space : Char → Bool} (hn : space '\n' = true) (hb : space '\\' = false) {ts vs : List Token}
    {first second third : List Char} (hf : Written ts first) (hc : NoComment first) (hm : '\\' ∉ second)
    (ht : Written vs (third ++ ['\n'])) (hl : Line space third) (hm' : third.getLast? ≠ some '\\') (rest : List (List Char)) :
    parseInput space ((first ++ ['\\', '\n']) :: (second ++ ['\\', '\n']) :: (third ++ ['\n']) :: rest) =
      Parser.parseTokens ((ts ++ ⟨.backslashArg, String.ofList ('\\' :: '\n' :: second ++ ['\\'])⟩ :: vs).map .ok) := by
  have hi := input_text hn hb hl hm' rest [first, second]
  simp only [List.map_cons, List.map_nil, List.cons_append, List.nil_append, List.flatten_cons, List.flatten_nil, List.append_nil] at hi
  unfold parseInput Parser.parseSource
  rw [hi, String.toList_ofList]
  have e : first ++ ['\\', '\n'] ++ (second ++ ['\\', '\n']) ++ third ++ ['\n'] =
      first ++ '\\' :: ('\n' :: second ++ ['\\'] ++ '\n' :: (third ++ ['\n'])) := by simp
  obtain ⟨n, pos, h1, h2⟩ := tokens_before ('\n' :: second ++ ['\\'] ++ '\n' :: (third ++ ['\n'])) _ 0 ts first (Nat.le_refl _) hf hc
  have hw : Written (⟨.backslashArg, String.ofList ('\\' :: '\n' :: second ++ ['\\'])⟩ :: vs)
      ('\\' :: ('\n' :: second ++ ['\\'] ++ '\n' :: (third ++ ['\n']))) := by
    have := Written.token (t := ⟨.backslashArg, String.ofList ('\\' :: '\n' :: second ++ ['\\'])⟩) (cs := '\n' :: (third ++ ['\n']))
      (.backslash _ ('\n' :: second) (by simp) (by simp [hm]))
      (by
        rw [String.toList_ofList]
        exact quote_apart (a := .lexBackslashArg) (by decide +kernel) _ _) (.blank (by decide) ht)
    simpa using this
  rw [e]
  unfold tokenize
  rw [h2, tokens_written _ _ _ _ h1 hw]
  simp

/-- **C69**, refuted: an expression, any text without a backslash, and an empty line are read as a call of the expression
with the text as its argument. -/
theorem three_lines_call {space : Char → Bool} (hn : space '\n' = true) (hb : space '\\' = false) {ts : List Token}
    {first second : List Char} (hf : Written ts first) (hc : NoComment first) (hm : '\\' ∉ second)
    {a : Expr} {l : Nat} {f : Kind → Prop} (ha : Grammar.Writes (.expr a l f) ts) (hfa : f .backslashArg) (rest : List (List Char)) :
    parseInput space ((first ++ ['\\', '\n']) :: (second ++ ['\\', '\n']) :: ['\n'] :: rest) =
      .ok (.block [] (some (.call a [.str (String.ofList ('\n' :: second))]))) := by
  have h := three_lines_tokens hn hb (third := []) hf hc hm (.blank (by decide) .nil) nofun nofun rest
  rw [List.nil_append] at h
  rw [h]
  refine Parser.parse_iff.2 ⟨_, _, [], _, Parser.eoi, (List.append_nil _).symm,
    .seqLast _ _ _ (.exprStmt _ _ _ _ (.callBackslash _ a l f ts rfl ha hfa)), ?_, .inl rfl, ⟨trivial, rfl⟩, ?_⟩
  · rfl
  · rw [Grammar.inner, String.toList_ofList, List.cons_append, List.tail_cons, List.dropLast_concat]
    rfl

/-- `f \`, `+ 1 \` and an empty line. -/
example : parseInput Char.isWhitespace ["f \\\n".toList, "+ 1 \\\n".toList, "\n".toList] =
    .ok (.block [] (some (.call (.ident "f") [.str "\n+ 1 "]))) :=
  three_lines_call (first := "f ".toList) (second := "+ 1 ".toList) rfl rfl (lexed_iff.1 ⟨by kernel_rfl, by decide⟩)
    (fun u v e => absurd (show '/' ∈ "f ".toList by rw [e]; simp) (by decide)) (by decide) (.ident ⟨.identifier, "f"⟩ rfl) trivial []

end Dice.Repl
