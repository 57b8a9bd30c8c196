import Verif.PrintProps

/-!
# Texts that are split into given tokens

`Written` says which texts are split into which tokens, tokens that touch included, and inserting blanks and comments
between two tokens of any text leaves the tokens as they are (C49).
-/

namespace Dice

/-- No word of a pattern at the front of the text reaches beyond `w`. -/
def Apart (w r : List Char) : Prop :=
  ∀ q ∈ patterns, ∀ v s, w ++ r = v ++ s → q.1.Matches v → v.length ≤ w.length

/-- The text spells the tokens one after the other.  Between them and around them are blanks, and comments that are not
empty and end with their line; tokens touch where no longer one could be read. -/
inductive Written : List Token → List Char → Prop where
  | nil : Written [] []
  | blank {b : Char} {ts : List Token} {cs : List Char} : isBlank b = true → Written ts cs → Written ts (b :: cs)
  | comment {body : List Char} {ts : List Token} {cs : List Char} : body ≠ [] →
      (∀ d ∈ body, d ≠ '\r' ∧ d ≠ '\n') → LineEnds cs → Written ts cs → Written ts ('/' :: '/' :: (body ++ cs))
  | token {t : Token} {ts : List Token} {cs : List Char} : Spelled t → Apart t.text.toList cs → Written ts cs →
      Written (t :: ts) (t.text.toList ++ cs)

/-! ## One token -/

theorem first_match {α : Type} {P : α → Prop} : ∀ {f1 b1 f2 b2 : List α} {x y : α}, f1 ++ x :: b1 = f2 ++ y :: b2 →
    (∀ q ∈ f1, ¬ P q) → (∀ q ∈ f2, ¬ P q) → P x → P y → x = y
  | [], _, [], _, _, _, h, _, _, _, _ => by cases h; rfl
  | [], _, z :: f2, _, _, _, h, _, h2, hx, _ => by
    cases h
    exact absurd hx (h2 _ List.mem_cons_self)
  | z :: f1, _, [], _, _, _, h, h1, _, _, hy => by
    cases h
    exact absurd hy (h1 _ List.mem_cons_self)
  | z :: f1, _, z' :: f2, _, _, _, h, h1, h2, hx, hy => by
    injection h with _ h
    exact first_match h (fun q hq => h1 q (List.mem_cons_of_mem _ hq)) (fun q hq => h2 q (List.mem_cons_of_mem _ hq)) hx hy

/-- The best match is what the search finds. -/
theorem best_scan {w r : List Char} {p : Pat} {a : Act} (h : Best w r p a) :
    longestMatch (w ++ r) patterns = some (w.length, a) := by
  obtain ⟨h1, h2, front, back, hps, h3⟩ := h
  have hin : (p, a) ∈ patterns := by rw [hps]; simp
  obtain ⟨k, hk, hl⟩ := longest_is_longest (r := r) h1
  cases hm : longestMatch (w ++ r) patterns with
  | none => rw [longestMatch_none hm _ hin] at hk; cases hk
  | some x =>
    obtain ⟨n, b⟩ := x
    obtain ⟨p', hn, -, ⟨g1, g2, front', back', hps', g3⟩, hin'⟩ := best_of_longestMatch hm
    have e1 := h2 _ hin' _ _ (List.take_append_drop n (w ++ r)).symm g1
    have e2 := g2 _ hin w r (List.take_append_drop n (w ++ r)) h1
    rw [List.length_take] at e1 e2
    have hn' : n = w.length := by omega
    subst hn'
    rw [List.take_left] at g1 g3
    have := first_match (P := fun q : Pat × Act => q.1.Matches w) (hps.symm.trans hps') h3 g3 h1 g1
    cases this
    rfl

theorem tok_kinds : ∀ q ∈ patterns, ∀ k, q.2 = .tok k → k ≠ .error ∧ k ≠ .string ∧ k ≠ .backslashArg := by
  have h : ∀ q ∈ patterns, (match q.2 with
      | .tok k => k != .error && k != .string && k != .backslashArg
      | _ => true) = true := by decide +kernel
  intro q hq k hk
  have := h q hq
  rw [hk] at this
  simpa [and_assoc] using this

theorem scan_plain {cs : List Char} {n : Nat} {k : Kind} (h : scan cs = ⟨n, some (.ok k)⟩)
    (hk : k ≠ .error ∧ k ≠ .string ∧ k ≠ .backslashArg) : longestMatch cs patterns = some (n, .tok k) := by
  unfold scan at h
  cases hm : longestMatch cs patterns with
  | none => rw [hm] at h; cases h; exact absurd rfl hk.1
  | some x =>
    obtain ⟨m, a⟩ := x
    rw [hm] at h
    cases a with
    | tok k' => cases h; rfl
    | skip => cases h
    | lexString =>
      dsimp only at h
      split at h <;> cases h
      · exact absurd rfl hk.2.1
      · exact absurd rfl hk.1
    | lexBackslashArg =>
      dsimp only at h
      split at h <;> cases h
      · exact absurd rfl hk.2.2
      · exact absurd rfl hk.1

/-- A token is read where no longer one could be. -/
theorem scan_apart {t : Token} (h : Spelled t) {r : List Char} (ha : Apart t.text.toList r) :
    scan (t.text.toList ++ r) = ⟨t.text.toList.length, some (.ok t.kind)⟩ := by
  have key : (t.kind ≠ .error ∧ t.kind ≠ .string ∧ t.kind ≠ .backslashArg) →
      scan (t.text.toList ++ r) = ⟨t.text.toList.length, some (.ok t.kind)⟩ := by
    intro hk
    have h0 := scan_spelled h (r := []) trivial
    rw [List.append_nil] at h0
    obtain ⟨p, -, -, ⟨h1, -, h3⟩, hin⟩ := best_of_longestMatch (scan_plain h0 hk)
    rw [List.take_length] at h1 h3
    exact scan_tok (best_scan ⟨h1, ha, h3⟩)
  cases h with
  | fixed k s h => exact key (tok_kinds _ h k rfl)
  | name => exact key ⟨nofun, nofun, nofun⟩
  | integer => exact key ⟨nofun, nofun, nofun⟩
  | float => exact key ⟨nofun, nofun, nofun⟩
  | string s body value hs hb =>
    dsimp only
    rw [hs]
    exact scan_string hb r
  | backslash s body hs hb =>
    dsimp only
    rw [hs]
    exact scan_backslash hb r

/-! ## The tokens of a text -/

theorem Written.dropBlanks {ts : List Token} {cs : List Char} (h : Written ts cs) :
    Written ts (cs.drop (cs.takeWhile isBlank).length) := by
  induction h with
  | nil => exact .nil
  | blank hb _ ih =>
    rw [List.takeWhile_cons, if_pos hb]
    exact ih
  | comment h0 hb hc hs _ => exact .comment h0 hb hc hs
  | @token t ts cs h ha hs _ =>
    obtain ⟨c, ds, e, hc⟩ := spelled_text h
    have : (t.text.toList ++ cs).takeWhile isBlank = [] := by simp [e, List.takeWhile_cons, hc]
    rw [this]
    exact .token h ha hs

theorem tokens_written (n : Nat) : ∀ (pos : Nat) (ts : List Token) (cs : List Char), cs.length ≤ n →
    Written ts cs → (tokens n pos cs).map (·.item) = ts.map .ok := by
  induction n with
  | zero =>
    intro pos ts cs hn h
    cases h with
    | nil => rfl
    | blank => simp at hn
    | comment => simp at hn
    | token h =>
      obtain ⟨c, cs, e, -⟩ := spelled_text h
      rw [e] at hn
      simp at hn
  | succ n ih =>
    intro pos ts cs hn h
    cases h with
    | nil => rfl
    | @blank b _ ds hb h =>
      rw [tokens]
      · simp only [scan_blank hb, List.drop_succ_cons]
        refine ih _ _ _ ?_ h.dropBlanks
        simp only [List.length_cons, List.length_drop] at hn ⊢
        omega
      · simp
    | @comment body _ ds h0 hb hc h =>
      rw [tokens]
      · simp only [scan_comment h0 hb hc, List.drop_succ_cons, List.drop_left]
        refine ih _ _ _ ?_ h
        simp only [List.length_cons, List.length_append] at hn ⊢
        omega
      · simp
    | @token t ts ds h ha hds =>
      obtain ⟨c, es, e, -⟩ := spelled_text h
      have hs := scan_apart h ha
      have hrest : (tokens n (pos + byteLength t.text.toList) ds).map (·.item) = ts.map .ok :=
        ih _ _ _ (by rw [e] at hn; simp at hn ⊢; omega) hds
      rw [e] at hs ⊢
      rw [e] at hrest
      rw [List.cons_append] at hs ⊢
      rw [tokens]
      · simp only [hs]
        rw [← List.cons_append, List.take_left, List.drop_left, List.map_cons, hrest, ← e, String.ofList_toList]
        rfl
      · simp

theorem lex_written {ts : List Token} {cs : List Char} (h : Written ts cs) : (tokenize cs).map (·.item) = ts.map .ok :=
  tokens_written _ _ _ _ (Nat.le_refl _) h

theorem number_actions : ∀ q ∈ patterns, (q.1 = .integer → q.2 = .tok .integer) ∧ (q.1 = .float → q.2 = .tok .float) ∧
    (q.1 = .blank → q.2 = .skip) ∧ (q.1 = .comment → q.2 = .skip) := by decide +kernel

/-- What is found and is no error is spelled as its kind says. -/
theorem found_spelled {w r : List Char} {k : Kind} (h : Found w r (some (.ok k))) (hk : k ≠ .error) :
    Spelled ⟨k, String.ofList w⟩ := by
  cases h with
  | @plain _ _ p _ h =>
    obtain ⟨h1, -, front, back, hps, h3⟩ := h
    have hin : (p, Act.tok k) ∈ patterns := by rw [hps]; simp
    cases p with
    | lit s => cases h1; exact .fixed _ _ (by rw [String.toList_ofList]; exact hin)
    | ident =>
      obtain ⟨c, cs, rfl, hc, hcs⟩ := h1
      have := ident_action _ hin rfl
      cases this
      refine .name _ c cs (by simp) hc hcs fun k hk' e => ?_
      have hf : patterns.takeWhile notIdent = front := by
        rw [hps]
        refine takeWhile_notIdent front back _ fun q hq he => h3 q hq ?_
        rw [he]
        exact ⟨c, cs, rfl, hc, hcs⟩
      have hkw := keywords_before_ident k hk'
      rw [hf] at hkw
      refine h3 _ hkw ?_
      show c :: cs = k.1.toList
      rw [e]; simp
    | integer =>
      have := (number_actions _ hin).1 rfl
      cases this
      exact .integer _ (by simpa using h1.1) (by simpa using h1.2)
    | float =>
      have := (number_actions _ hin).2.1 rfl
      cases this
      obtain ⟨a, b, rfl, ha, hb, ha', hb'⟩ := h1
      exact .float _ a b (by simp) ha hb ha' hb'
    | blank => exact nomatch (number_actions _ hin).2.2.1 rfl
    | comment => exact nomatch (number_actions _ hin).2.2.2 rfl
  | nothing => exact absurd rfl hk
  | string hd => exact .string _ _ _ (by simp) hd
  | openString => exact absurd rfl hk
  | backslash hd => exact .backslash _ _ (by simp) hd
  | openBackslash => exact absurd rfl hk

theorem matches_starts {q : Pat × Act} (hq : q ∈ patterns) {c : Char} {v : List Char} (h : q.1.Matches (c :: v)) :
    startsWith c q = true := by
  cases hs : startsWith c q with
  | true => rfl
  | false =>
    obtain ⟨n, hn, -⟩ := longest_is_longest (r := []) h
    rw [List.append_nil, longest_startsWith hq hs] at hn
    cases hn

theorem quote_apart {c : Char} {a : Act} (hc : patterns.filter (startsWith c) = [(.lit [c], a)]) (w r : List Char) :
    Apart (c :: w) r := by
  intro q hq v s hv hm
  cases v with
  | nil => exact absurd rfl (matches_nonempty hq hm)
  | cons d v =>
    rw [List.cons_append, List.cons_append] at hv
    injection hv with h1 _
    subst h1
    have : q ∈ patterns.filter (startsWith c) := List.mem_filter.2 ⟨hq, matches_starts hq hm⟩
    rw [hc, List.mem_singleton] at this
    subst this
    cases hm
    simp

theorem found_apart {w r : List Char} {k : Kind} (h : Found w r (some (.ok k))) (hk : k ≠ .error) : Apart w r := by
  cases h with
  | plain h => exact h.2.1
  | nothing => exact absurd rfl hk
  | string hd => exact quote_apart (a := .lexString) (by decide +kernel) _ _
  | openString => exact absurd rfl hk
  | backslash hd => exact quote_apart (a := .lexBackslashArg) (by decide +kernel) _ _
  | openBackslash => exact absurd rfl hk

theorem written_blanks {ts : List Token} {w r : List Char} (h : ∀ d ∈ w, isBlank d = true) (hr : Written ts r) :
    Written ts (w ++ r) := by
  induction w with
  | nil => exact hr
  | cons d w ih => exact .blank (h d List.mem_cons_self) (ih fun d hd => h d (List.mem_cons_of_mem _ hd))

theorem notNewline_iff {d : Char} : notNewline d = true ↔ d ≠ '\r' ∧ d ≠ '\n' := by
  simp [notNewline]

theorem written_skip {ts : List Token} {w r : List Char} (h : Found w r none) (hr : Written ts r) : Written ts (w ++ r) := by
  have hm := found_skip h
  cases h with
  | @skip _ _ p hb =>
    rcases hm with hm | ⟨b, rfl, h0, hb'⟩
    · exact written_blanks hm.2 hr
    · refine .comment h0 (fun d hd => notNewline_iff.1 (hb' d hd)) ?_ hr
      cases r with
      | nil => trivial
      | cons c r =>
        cases hc : notNewline c with
        | false =>
          show c = '\r' ∨ c = '\n'
          simpa [notNewline, Classical.or_iff_not_imp_left] using hc
        | true =>
          have hcom : (Pat.comment, Act.skip) ∈ patterns := by decide +kernel
          have := hb.2.1 _ hcom ('/' :: '/' :: (b ++ [c])) r (by simp) ⟨b ++ [c], rfl, by simp, by
            intro d hd
            rcases List.mem_append.1 hd with hd | hd
            · exact hb' d hd
            · rw [List.mem_singleton.1 hd]; exact hc⟩
          simp at this
          omega

theorem written_tokens (n : Nat) : ∀ (pos : Nat) (ts : List Token) (cs : List Char), cs.length ≤ n →
    (tokens n pos cs).map (·.item) = ts.map .ok → (∀ t ∈ ts, t.kind ≠ .error) → Written ts cs := by
  induction n with
  | zero =>
    intro pos ts cs hn h _
    have : cs = [] := List.length_eq_zero_iff.1 (by omega)
    subst this
    cases ts with
    | nil => exact .nil
    | cons => cases h
  | succ n ih =>
    intro pos ts cs hn h he
    cases cs with
    | nil =>
      cases ts with
      | nil => exact .nil
      | cons => cases h
    | cons c cs =>
      obtain ⟨h1, h2, h3⟩ := scan_found (cs := c :: cs) (by simp)
      have hlen : ((c :: cs).drop (scan (c :: cs)).length).length ≤ n := by rw [List.length_drop]; omega
      rw [← List.take_append_drop (scan (c :: cs)).length (c :: cs)]
      rw [tokens] at h
      · cases hi : (scan (c :: cs)).item with
        | none =>
          rw [hi] at h h1
          exact written_skip h1 (ih _ _ _ hlen h he)
        | some x =>
          rw [hi] at h h1
          cases x with
          | error e =>
            cases ts with
            | nil => cases h
            | cons t ts => injection h with h _; cases h
          | ok k =>
            cases ts with
            | nil => cases h
            | cons t ts =>
              injection h with ht h
              injection ht with ht
              subst ht
              have hk := he _ List.mem_cons_self
              have hrest := ih _ _ _ hlen h fun t ht => he t (List.mem_cons_of_mem _ ht)
              have := Written.token (found_spelled h1 hk) (by rw [String.toList_ofList]; exact found_apart h1 hk) hrest
              rwa [String.toList_ofList] at this
      · simp

theorem spelled_kind {t : Token} (h : Spelled t) : t.kind ≠ .error := by
  cases h with
  | fixed k s h => exact (tok_kinds _ h k rfl).1
  | _ => nofun

theorem Written.kinds {ts : List Token} {cs : List Char} (h : Written ts cs) : ∀ t ∈ ts, t.kind ≠ .error := by
  induction h with
  | nil => nofun
  | blank _ _ ih => exact ih
  | comment _ _ _ _ ih => exact ih
  | token h _ _ ih =>
    intro t ht
    cases ht with
    | head => exact spelled_kind h
    | tail _ ht => exact ih t ht

/-- **C41**: a text is split into tokens, none of them an error, exactly if it spells them. -/
theorem lexed_iff {ts : List Token} {source : List Char} :
    ((tokenize source).map (·.item) = ts.map .ok ∧ ∀ t ∈ ts, t.kind ≠ .error) ↔ Written ts source :=
  ⟨fun h => written_tokens _ _ _ _ (Nat.le_refl _) h.1 h.2, fun h => ⟨lex_written h, h.kinds⟩⟩

/-! ## Inserting blanks and comments -/

/-- Blanks, and comments that are not empty with the ends of their lines. -/
inductive Filler : List Char → Prop where
  | nil : Filler []
  | blank {b : Char} {g : List Char} : isBlank b = true → Filler g → Filler (b :: g)
  | comment {body : List Char} {c : Char} {g : List Char} : body ≠ [] → (∀ d ∈ body, d ≠ '\r' ∧ d ≠ '\n') →
      (c = '\r' ∨ c = '\n') → Filler g → Filler ('/' :: '/' :: (body ++ c :: g))

/-- What may be put between tokens: it begins with a blank, since a comment after a `/` would begin there. -/
def Spacing (g : List Char) : Prop := ∃ b g', g = b :: g' ∧ isBlank b = true ∧ Filler g'

theorem Filler.written {ts : List Token} {g cs : List Char} (h : Filler g) (hcs : Written ts cs) : Written ts (g ++ cs) := by
  induction h with
  | nil => exact hcs
  | blank hb _ ih => exact .blank hb ih
  | @comment body c g h0 hb hc _ ih =>
    have hbl : isBlank c = true := by rcases hc with rfl | rfl <;> rfl
    have := Written.comment h0 hb (cs := c :: (g ++ cs)) hc (.blank hbl ih)
    simpa using this

theorem Spacing.written {ts : List Token} {g cs : List Char} (h : Spacing g) (hcs : Written ts cs) : Written ts (g ++ cs) := by
  obtain ⟨b, g', rfl, hb, hg⟩ := h
  exact .blank hb (hg.written hcs)

theorem ended_apart {t : Token} (h : Spelled t) {r : List Char} (hr : Ended r) : Apart t.text.toList r := by
  obtain ⟨c, cs, e, -⟩ := spelled_text h
  have hs := scan_spelled h hr
  have hf := (scan_found (cs := t.text.toList ++ r) (by simp [e])).1
  rw [hs] at hf
  dsimp only at hf
  rw [List.take_left, List.drop_left] at hf
  exact found_apart hf (spelled_kind h)

/-- The token `/`. -/
def slash : Token := ⟨.slash, "/"⟩

theorem written_slash {ts : List Token} (h : Written ts ['/']) : ts = [slash] := by
  have h1 := lex_written h
  have h2 : (tokenize ['/']).map (·.item) = [.ok slash] := by kernel_rfl
  rw [h2] at h1
  match ts, h1 with
  | [t], h1 => injection h1 with h1 _; injection h1 with h1; rw [h1]

/-- A blank is only inside of matches of blanks and comments. -/
theorem matches_blank {q : Pat × Act} (hq : q ∈ patterns) {c b : Char} {v : List Char} (h : q.1.Matches (c :: v))
    (hc : isBlank c = false) (hb : isBlank b = true) (hm : b ∈ c :: v) :
    ∃ body, c :: v = '/' :: '/' :: body ∧ ∀ d ∈ body, notNewline d = true := by
  have hnb := patterns_noBlank q hq
  obtain ⟨p, a⟩ := q
  cases p with
  | lit s =>
    simp only [noBlankPat, List.all_eq_true, Bool.not_eq_true'] at hnb
    cases h
    rw [hnb b hm] at hb
    cases hb
  | ident =>
    obtain ⟨c', cs, e, h1, h2⟩ := h
    cases e
    cases hm with
    | head => rw [hc] at hb; cases hb
    | tail _ hm => have := h2 b hm; rw [blank_not_ident b hb] at this; cases this
  | integer =>
    have := h.2 b hm
    rw [blank_not_digit b hb] at this
    cases this
  | float =>
    obtain ⟨x, y, e, -, -, h1, h2⟩ := h
    rw [e] at hm
    rcases List.mem_append.1 hm with hm | hm
    · have := h1 b hm
      rw [blank_not_digit b hb] at this
      cases this
    · cases hm with
      | head => cases hb
      | tail _ hm =>
        have := h2 b hm
        rw [blank_not_digit b hb] at this
        cases this
  | blank =>
    have := h.2 c List.mem_cons_self
    rw [hc] at this
    cases this
  | comment =>
    obtain ⟨body, e, -, h1⟩ := h
    exact ⟨body, e, h1⟩

theorem written_ne {t : Token} {ts : List Token} (h : Written (t :: ts) []) : False := by
  have := lex_written h
  cases this

theorem spelled_not_comment {t : Token} (h : Spelled t) {w : List Char} (e : t.text.toList = '/' :: '/' :: w) : False := by
  cases h with
  | fixed k s h =>
    have h1 := patterns_litFound _ h
    simp only [litFound, Bool.and_eq_true, beq_iff_eq, Bool.not_eq_true'] at h1
    dsimp only at e
    rw [e] at h1
    exact absurd h1.2 (by simp)
  | name s c cs hs hc =>
    dsimp only at e
    rw [hs] at e
    cases e
    exact absurd hc (by decide)
  | integer s _ h => exact absurd (h '/' (by dsimp only at e; rw [e]; exact List.mem_cons_self)) (by decide)
  | float s a b hs ha hb ha' =>
    dsimp only at e
    rw [hs] at e
    cases a with
    | nil => exact ha rfl
    | cons c a =>
      rw [List.cons_append] at e
      injection e with e _
      subst e
      exact absurd (ha' _ List.mem_cons_self) (by decide)
  | string s body value hs => dsimp only at e; rw [hs] at e; cases e
  | backslash s body hs => dsimp only at e; rw [hs] at e; cases e

theorem insert_apart {t : Token} {a b g : List Char} (ht : Spelled t) (hg : Spacing g) (h : Apart t.text.toList (a ++ b))
    (hn : a = [] ∨ ¬ (t.text.toList = ['/'] ∧ a = ['/'])) : Apart t.text.toList (a ++ (g ++ b)) := by
  obtain ⟨bl, g', rfl, hb, hg'⟩ := hg
  by_cases ha : a = []
  · subst ha
    exact ended_apart ht hb
  · intro q hq v s hv hm
    rcases Nat.lt_or_ge (t.text.toList ++ a).length v.length with hl | hl
    · obtain ⟨c, w, e, hc⟩ := spelled_text ht
      obtain ⟨v', hv'⟩ : ∃ v', v = t.text.toList ++ a ++ bl :: v' := by
        rw [← List.append_assoc] at hv
        rcases List.append_eq_append_iff.1 hv with ⟨x, h1, h2⟩ | ⟨x, h1, h2⟩
        · cases x with
          | nil => rw [h1] at hl; simp at hl
          | cons y x =>
            rw [List.cons_append, List.cons_append] at h2
            injection h2 with h2 _
            exact ⟨x, by rw [h1, h2]⟩
        · rw [h1, List.length_append] at hl; omega
      have hm' := hm
      rw [hv', e, List.append_assoc, List.cons_append] at hm'
      obtain ⟨body, h1, h2⟩ := matches_blank hq hm' hc hb (by simp)
      exfalso
      injection h1 with e1 h1
      subst e1
      cases w with
      | cons d w =>
        rw [List.cons_append] at h1
        injection h1 with e1 h1
        subst e1
        exact spelled_not_comment ht e
      | nil =>
        cases a with
        | nil => exact ha rfl
        | cons d a =>
          rw [List.nil_append, List.cons_append] at h1
          injection h1 with e1 h1
          subst e1
          rcases hn with hn | hn
          · cases hn
          · cases a with
            | nil => exact hn ⟨e, rfl⟩
            | cons d a =>
              have hcom : (Pat.comment, Act.skip) ∈ patterns := by decide +kernel
              have := h _ hcom ('/' :: '/' :: d :: a) b (by rw [e]; rfl) ⟨d :: a, rfl, by simp, fun x hx => h2 x (by
                rw [← h1]; exact List.mem_append_left _ hx)⟩
              rw [e] at this
              simp at this
    · refine h q hq v ((t.text.toList ++ a ++ b).drop v.length) ?_ hm
      have : v = (t.text.toList ++ a).take v.length := by
        have h1 := congrArg (List.take v.length) hv
        rw [List.take_left, ← List.append_assoc, List.take_append_of_le_length hl] at h1
        exact h1.symm
      rw [← List.append_assoc]
      conv => lhs; rw [← List.take_append_drop v.length (t.text.toList ++ a ++ b)]
      rw [List.take_append_of_le_length hl, ← this]

/-- Blanks and comments put behind the first `i` tokens of a text leave its tokens as they are. -/
theorem Written.insert {ts : List Token} {cs : List Char} (h : Written ts cs)
    (hn : ∀ us vs, ts ≠ us ++ slash :: slash :: vs) : ∀ i, i ≤ ts.length → ∃ a b, cs = a ++ b ∧ (i = 0 → a = []) ∧
      Written (ts.take i) a ∧ Written (ts.drop i) b ∧ ∀ g, Spacing g → Written ts (a ++ (g ++ b)) := by
  induction h with
  | nil => exact fun i hi => ⟨[], [], rfl, fun _ => rfl, by simpa using .nil, by simpa using .nil, fun g hg => hg.written .nil⟩
  | @blank b ts cs hb h ih =>
    intro i hi
    cases i with
    | zero => exact ⟨[], b :: cs, rfl, fun _ => rfl, .nil, .blank hb h, fun g hg => hg.written (.blank hb h)⟩
    | succ i =>
      obtain ⟨a, c, rfl, -, h1, h2, h3⟩ := ih hn (i + 1) hi
      exact ⟨b :: a, c, rfl, nofun, .blank hb h1, h2, fun g hg => .blank hb (h3 g hg)⟩
  | @comment body ts cs h0 hb hc h ih =>
    intro i hi
    cases i with
    | zero => exact ⟨[], _, rfl, fun _ => rfl, .nil, .comment h0 hb hc h, fun g hg => hg.written (.comment h0 hb hc h)⟩
    | succ i =>
      obtain ⟨a, c, rfl, -, h1, h2, h3⟩ := ih hn (i + 1) hi
      cases a with
      | nil =>
        cases ts with
        | nil => simp at hi
        | cons t ts => exact (written_ne h1).elim
      | cons x a =>
        refine ⟨'/' :: '/' :: (body ++ x :: a), c, by simp, nofun, .comment h0 hb hc h1, h2, fun g hg => ?_⟩
        have := Written.comment h0 hb (cs := x :: a ++ (g ++ c)) hc (h3 g hg)
        simpa using this
  | @token t ts cs ht ha h ih =>
    intro i hi
    cases i with
    | zero => exact ⟨[], _, rfl, fun _ => rfl, .nil, .token ht ha h, fun g hg => hg.written (.token ht ha h)⟩
    | succ i =>
      obtain ⟨a, b, rfl, h0, h1, h2, h3⟩ := ih (fun us vs e => hn (t :: us) vs (by rw [e]; rfl)) i (by simpa using hi)
      refine ⟨t.text.toList ++ a, b, by simp, nofun, ?_, h2, fun g hg => ?_⟩
      · refine .token ht ?_ h1
        intro q hq v s hv hm
        exact ha q hq v (s ++ b) (by rw [← List.append_assoc, hv, List.append_assoc]) hm
      · rw [List.append_assoc]
        refine .token ht (insert_apart ht hg ha ?_) (h3 g hg)
        refine .inr fun ⟨e1, e2⟩ => ?_
        subst e2
        have e3 := written_slash h1
        have e4 : [t] = [slash] := written_slash (by
          have := Written.token (cs := []) ht (ended_apart ht trivial) .nil
          rwa [List.append_nil, e1] at this)
        cases e4
        cases ts with
        | nil => simp at e3
        | cons u ts =>
          cases i with
          | zero => simp at e3
          | succ i =>
            rw [List.take_succ_cons] at e3
            injection e3 with e3 _
            subst e3
            exact hn [] ts rfl

/-- **C49.**  In any text that is split into tokens without an error, tokens that touch included, blanks, line breaks and
comments put behind any of the tokens or in front of all change neither the tokens nor the tree.  Missing: comments
without text (`empty_comment`), and with them `//` before the end of the text, which are two tokens. -/
theorem spacing_ignored_partial {ts : List Token} {source : List Char}
    (h : (tokenize source).map (·.item) = ts.map .ok) (he : ∀ t ∈ ts, t.kind ≠ .error)
    (hn : ∀ us vs, ts ≠ us ++ slash :: slash :: vs) (i : Nat) (hi : i ≤ ts.length) :
    ∃ a b, source = a ++ b ∧ (tokenize a).map (·.item) = (ts.take i).map .ok ∧ (tokenize b).map (·.item) = (ts.drop i).map .ok ∧
      ∀ g, Spacing g → (tokenize (a ++ (g ++ b))).map (·.item) = ts.map .ok ∧
        Parser.parseSource (String.ofList (a ++ (g ++ b))) = Parser.parseSource (String.ofList source) := by
  obtain ⟨a, b, e, -, h1, h2, h3⟩ := (lexed_iff.1 ⟨h, he⟩).insert hn i hi
  refine ⟨a, b, e, lex_written h1, lex_written h2, fun g hg => ?_⟩
  have h4 := lex_written (h3 g hg)
  refine ⟨h4, ?_⟩
  unfold Parser.parseSource
  rw [String.toList_ofList, String.toList_ofList, h4, h]

/-- `a+b` and the place behind its first token, where ` // -b` and a line break are put. -/
example : (tokenize "a+b".toList).map (·.item) = [.ok ⟨.identifier, "a"⟩, .ok ⟨.plus, "+"⟩, .ok ⟨.identifier, "b"⟩] ∧
    Spacing " // -b\n".toList :=
  ⟨by kernel_rfl, ' ', _, rfl, rfl, .comment (body := " -b".toList) (by decide) (by decide) (.inr rfl) .nil⟩

end Dice
