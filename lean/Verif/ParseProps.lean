import Verif.Parser

/-!
# Parsing always ends

C38.  The parser gives a tree or an error value on every token sequence, except that it aborts on some
sequences with a token for which there is no rule.
-/

namespace Dice.Parser

/-- The kinds of token without a rule. -/
def ruleless : List Kind :=
  [.arrow, .wideArrow, .else_, .mut, .in_, .as, .from_, .reserved, .error]

/-- A token of such a kind occurs. -/
def HasRuleless (ts : Input) : Prop := ∃ t : Token, .ok t ∈ ts ∧ t.kind ∈ ruleless

theorem ruleFor_none {k : Kind} : ruleFor k = none ↔ k ∈ ruleless := by
  cases k <;> simp [ruleFor, ruleless]

/-- `p` does not run out of fuel on `ts`, it panics only at a token without a rule, and when it succeeds it
leaves a suffix of the input and `Q` holds. -/
def Res {α : Type} (p : P α) (ts : Input) (Q : α → Input → Prop) : Prop :=
  match p ts with
  | .ok (a, rest) => rest <:+ ts ∧ Q a rest
  | .error .fuel => False
  | .error .panic => HasRuleless ts
  | .error (.error _) => True

/-- The token that is next. -/
def Head (t : Token) : Input → Prop
  | [] => t = eoi
  | .ok u :: _ => t = u
  | .error _ :: _ => False

theorem HasRuleless.mono {ts us : Input} (h : HasRuleless us) (s : us <:+ ts) : HasRuleless ts := by
  obtain ⟨t, ht, hk⟩ := h
  exact ⟨t, s.subset ht, hk⟩

theorem res_bind {α β : Type} {p : P α} {f : α → P β} {ts : Input} {Q : β → Input → Prop}
    (h : Res p ts fun a rest => Res (f a) rest Q) : Res (p >>= f) ts Q := by
  show Res (P.bind p f) ts Q
  unfold Res P.bind
  unfold Res at h
  split at h
  · next a rest e =>
    rw [e]
    dsimp only
    obtain ⟨s, h⟩ := h
    split at h
    · next b rest' e' => exact ⟨h.1.trans s, h.2⟩
    · exact h
    · exact h.mono s
    · trivial
  · exact h.elim
  · next e => rw [e]; exact h
  · next e => rw [e]; trivial

theorem res_pure {α : Type} {a : α} {ts : Input} {Q : α → Input → Prop} (h : Q a ts) :
    Res (pure a) ts Q :=
  ⟨List.suffix_refl _, h⟩

theorem res_fail {α : Type} {e : SyntaxErr} {ts : Input} {Q : α → Input → Prop} :
    Res (P.fail e) ts Q := trivial

theorem res_mono {α : Type} {p : P α} {ts : Input} {Q Q' : α → Input → Prop} (h : Res p ts Q)
    (k : ∀ a rest, Q a rest → Q' a rest) : Res p ts Q' := by
  unfold Res at h ⊢
  split at h
  · next e => exact ⟨h.1, k _ _ h.2⟩
  · exact h.elim
  · exact h
  · trivial

theorem res_map {α β : Type} {f : α → β} {p : P α} {ts : Input} {Q : β → Input → Prop}
    (h : Res p ts fun a rest => Q (f a) rest) : Res (f <$> p) ts Q :=
  res_bind (f := fun a => pure (f a)) (res_mono h fun _ _ k => res_pure k)

theorem res_peek {ts : Input} {Q : Token → Input → Prop} (h : ∀ t, Head t ts → Q t ts) :
    Res peekToken ts Q := by
  unfold Res peekToken
  cases ts with
  | nil => exact ⟨List.suffix_refl _, h _ rfl⟩
  | cons x ts =>
    cases x with
    | error e => trivial
    | ok t => exact ⟨List.suffix_refl _, h _ rfl⟩

theorem res_next {ts : Input} {Q : Token → Input → Prop} (h : ∀ t, Head t ts → Q t ts.tail) :
    Res nextToken ts Q := by
  unfold Res nextToken
  cases ts with
  | nil => exact ⟨List.suffix_refl _, h _ rfl⟩
  | cons x ts =>
    cases x with
    | error e => trivial
    | ok t => exact ⟨List.suffix_cons _ _, h _ rfl⟩

theorem Head.cons {t : Token} {ts : Input} (h : Head t ts) (k : t.kind ≠ .endOfInput) :
    ∃ rest, ts = .ok t :: rest := by
  cases ts with
  | nil => cases h; exact absurd rfl k
  | cons x ts =>
    cases x with
    | error e => exact h.elim
    | ok u => cases h; exact ⟨_, rfl⟩

theorem res_next_kind {ts : Input} {Q : Token → Input → Prop}
    (h : ∀ t, Head t ts → t.kind = .endOfInput → Q t ts.tail)
    (h' : ∀ t rest, ts = .ok t :: rest → Q t rest) : Res nextToken ts Q := by
  apply res_next
  intro t ht
  by_cases e : t.kind = .endOfInput
  · exact h t ht e
  · obtain ⟨rest, e'⟩ := ht.cons e
    subst e'
    exact h' t rest rfl

theorem res_consume {k : Kind} {ts : Input} {Q : Unit → Input → Prop} (hk : k ≠ .endOfInput)
    (h : ∀ t rest, ts = .ok t :: rest → t.kind = k → Q () rest) : Res (consume k) ts Q := by
  apply res_bind
  apply res_next
  intro t ht
  by_cases e : t.kind = k
  · rw [if_pos e]
    obtain ⟨rest, e'⟩ := ht.cons (e ▸ hk)
    subst e'
    exact res_pure (h t rest rfl e)
  · rw [if_neg e]
    exact res_fail

theorem res_consumeIdent {ts : Input} {Q : String → Input → Prop}
    (h : ∀ t rest, ts = .ok t :: rest → t.kind = .identifier → Q t.text rest) :
    Res consumeIdent ts Q := by
  apply res_bind
  apply res_next
  intro t ht
  by_cases e : t.kind = .identifier
  · rw [if_pos e]
    obtain ⟨rest, e'⟩ := ht.cons (e ▸ nofun)
    subst e'
    exact res_pure (h t rest rfl e)
  · rw [if_neg e]
    exact res_fail

theorem res_consumeString {ts : Input} {Q : String → Input → Prop}
    (h : ∀ t rest, ts = .ok t :: rest → t.kind = .string → Q t.text rest) :
    Res consumeString ts Q := by
  apply res_bind
  apply res_next
  intro t ht
  by_cases e : t.kind = .string
  · rw [if_pos e]
    obtain ⟨rest, e'⟩ := ht.cons (e ▸ nofun)
    subst e'
    exact res_pure (h t rest rfl e)
  · rw [if_neg e]
    exact res_fail

theorem res_ruleOf {k : Kind} {ts : Input} {Q : Rule → Input → Prop} (t : Token) (ht : Head t ts)
    (hk : t.kind = k) (h : ∀ rule, ruleFor k = some rule → Q rule ts) : Res (ruleOf k) ts Q := by
  unfold ruleOf
  split
  · next rule e => exact res_pure (h rule e)
  · next e =>
    have m := ruleFor_none.1 e
    show HasRuleless ts
    by_cases eo : t.kind = .endOfInput
    · rw [hk] at eo
      subst eo
      exact absurd m (by decide)
    · obtain ⟨rest, e'⟩ := ht.cons eo
      subst e'
      exact ⟨t, List.mem_cons_self, hk ▸ m⟩

/-- The input got shorter. -/
abbrev Shorter {α : Type} (ts : Input) : α → Input → Prop := fun _ rest => rest.length < ts.length

/-- The input did not get longer. -/
abbrev NoLonger {α : Type} (ts : Input) : α → Input → Prop := fun _ rest => rest.length ≤ ts.length

/-! ## Parts without expressions -/

theorem res_typeAnnotation {d : Kind} (hd : d ≠ .endOfInput) (ts : Input) :
    Res (parseTypeAnnotation d) ts (Shorter ts) := by
  apply res_bind
  apply res_consume hd
  rintro _ ts rfl -
  apply res_bind
  apply res_consumeIdent
  rintro _ ts rfl -
  apply res_bind
  apply res_peek
  intro t _
  by_cases e : t.kind = .questionMark
  · rw [if_pos e]
    apply res_bind
    apply res_consume (by decide)
    rintro _ ts rfl -
    apply res_pure
    simp; omega
  · rw [if_neg e]
    apply res_pure
    simp; omega

theorem res_return (ts : Input) : Res parseReturn ts (NoLonger ts) := by
  apply res_bind
  apply res_peek
  intro t _
  by_cases e : t.kind = .arrow
  · rw [if_pos e]
    apply res_map
    exact res_mono (res_typeAnnotation (by decide) _) fun _ _ h => Nat.le_of_lt h
  · rw [if_neg e]
    exact res_pure (Nat.le_refl _)

theorem res_argType (ts : Input) : Res parseArgType ts (NoLonger ts) := by
  apply res_bind
  apply res_peek
  intro t _
  by_cases e : t.kind = .colon
  · rw [if_pos e]
    apply res_map
    exact res_mono (res_typeAnnotation (by decide) _) fun _ _ h => Nat.le_of_lt h
  · rw [if_neg e]
    exact res_pure (Nat.le_refl _)

theorem res_separator (close : Kind) (ts : Input) : Res (separator close) ts (NoLonger ts) := by
  apply res_bind
  apply res_peek
  intro t _
  by_cases e : t.kind = .comma
  · rw [if_pos e]
    apply res_bind
    apply res_next
    intro _ _
    apply res_pure
    simp
  · rw [if_neg e]
    by_cases e : t.kind ≠ close
    · rw [if_pos e]; exact res_fail
    · rw [if_neg e]; exact res_pure (Nat.le_refl _)

theorem res_argsLoop (close : Kind) : ∀ (n : Nat) (ts : Input), ts.length < n →
    Res (argsLoop n close) ts (NoLonger ts) := by
  intro n
  induction n with
  | zero => exact fun _ h => absurd h (Nat.not_lt_zero _)
  | succ n ih =>
    intro ts h
    apply res_bind
    apply res_peek
    intro t _
    by_cases e : t.kind = close
    · rw [if_pos e]; exact res_pure (Nat.le_refl _)
    · rw [if_neg e]
      apply res_bind
      apply res_consumeIdent
      rintro _ ts rfl -
      apply res_bind
      refine res_mono (res_argType _) ?_
      intro _ rest h1
      apply res_bind
      refine res_mono (res_separator _ _) ?_
      intro _ rest' h2
      apply res_bind
      refine res_mono (ih _ ?_) ?_
      · simp at h; dsimp only [NoLonger] at *; omega
      · intro _ rest'' h3
        apply res_pure
        dsimp only [NoLonger] at *; simp; omega

theorem res_args {n : Nat} {o c : Kind} (ho : o ≠ .endOfInput) (hc : c ≠ .endOfInput) (ts : Input)
    (h : ts.length ≤ n) : Res (parseArgs n o c) ts (Shorter ts) := by
  apply res_bind
  apply res_consume ho
  rintro _ ts rfl -
  apply res_bind
  refine res_mono (res_argsLoop c n ts h) ?_
  intro _ rest h1
  apply res_bind
  apply res_consume hc
  rintro _ ts rfl -
  apply res_pure
  dsimp only [NoLonger, Shorter] at *; simp at *; omega

theorem res_fieldsLoop (close : Kind) : ∀ (n : Nat) (ts : Input), ts.length < n →
    Res (fieldsLoop n close) ts (NoLonger ts) := by
  intro n
  induction n with
  | zero => exact fun _ h => absurd h (Nat.not_lt_zero _)
  | succ n ih =>
    intro ts h
    apply res_bind
    apply res_peek
    intro t _
    by_cases e : t.kind = close
    · rw [if_pos e]; exact res_pure (Nat.le_refl _)
    · rw [if_neg e]
      apply res_bind
      apply res_consumeIdent
      rintro _ ts rfl -
      apply res_bind
      refine res_mono (res_separator _ _) ?_
      intro _ rest' h2
      apply res_bind
      refine res_mono (ih _ ?_) ?_
      · simp at h; dsimp only [NoLonger] at *; omega
      · intro _ rest'' h3
        apply res_pure
        dsimp only [NoLonger] at *; simp; omega

theorem res_fields {n : Nat} {o c : Kind} (ho : o ≠ .endOfInput) (hc : c ≠ .endOfInput) (ts : Input)
    (h : ts.length ≤ n) : Res (parseFields n o c) ts (Shorter ts) := by
  apply res_bind
  apply res_consume ho
  rintro _ ts rfl -
  apply res_bind
  refine res_mono (res_fieldsLoop c n ts h) ?_
  intro _ rest h1
  apply res_bind
  apply res_consume hc
  rintro _ ts rfl -
  apply res_pure
  dsimp only [NoLonger, Shorter] at *; simp at *; omega

theorem res_literal (ts : Input) : Res literal ts (Shorter ts) := by
  apply res_bind
  apply res_next_kind
  · intro t _ e
    rw [e]
    exact res_fail
  · rintro t rest rfl
    have hl : rest.length < (Except.ok t :: rest : Input).length := Nat.lt_succ_self _
    split
    · split
      · exact res_pure hl
      · exact res_fail
    all_goals first | exact res_pure hl | exact res_fail

theorem res_importModule (ts : Input) : Res importModule ts (NoLonger ts) := by
  apply res_bind
  apply res_peek
  intro t _
  dsimp only
  by_cases e : t.kind = .star
  · rw [if_pos e]
    apply res_bind
    apply res_consume (by decide)
    rintro _ ts rfl -
    apply res_bind
    apply res_consume (by decide)
    rintro _ ts rfl -
    apply res_bind
    apply res_consumeIdent
    rintro _ ts rfl -
    apply res_bind
    apply res_peek
    intro t _
    by_cases e : t.kind = .comma
    · rw [if_pos e]
      apply res_bind
      apply res_consume (by decide)
      rintro _ ts rfl -
      apply res_pure
      simp; omega
    · rw [if_neg e]
      apply res_pure
      simp; omega
  · rw [if_neg e]
    exact res_pure (Nat.le_refl _)

theorem res_importItems {n : Nat} (ts : Input) (h : ts.length ≤ n) :
    Res (importItems n) ts (NoLonger ts) := by
  apply res_bind
  apply res_peek
  intro t _
  by_cases e : t.kind = .leftCurly
  · rw [if_pos e]
    exact res_mono (res_fields (by decide) (by decide) _ h) fun _ _ h => Nat.le_of_lt h
  · rw [if_neg e]
    exact res_pure (Nat.le_refl _)

theorem res_importDecl {n : Nat} (ts : Input) (h : ts.length ≤ n) :
    Res (importDecl n) ts (Shorter ts) := by
  apply res_bind
  apply res_consume (by decide)
  rintro _ ts rfl -
  apply res_bind
  refine res_mono (res_importModule _) ?_
  intro m rest h1
  apply res_bind
  refine res_mono (res_importItems _ ?_) ?_
  · simp at h; dsimp only [NoLonger] at *; omega
  intro items rest' h2
  split
  · exact res_fail
  · apply res_bind
    apply res_consume (by decide)
    rintro _ ts rfl -
    apply res_bind
    apply res_consumeString
    rintro _ ts rfl -
    apply res_pure
    dsimp only [NoLonger, Shorter] at *; simp at *; omega

/-! ## Expressions and statements -/

/-- The recursive calls end when the input is short enough for `n`. -/
structure Ends (r : Rec) (n : Nat) : Prop where
  prec : ∀ p ts, 2 * ts.length + 2 ≤ n → Res (r.prec p) ts (Shorter ts)
  sequence : ∀ ts, 2 * ts.length + 3 ≤ n → Res r.sequence ts (NoLonger ts)
  ifExpr : ∀ ts, 2 * ts.length + 2 ≤ n → Res r.ifExpr ts (Shorter ts)

variable {r : Rec} {n : Nat}

theorem res_block (hr : Ends r n) (ts : Input) (h : 2 * ts.length + 1 ≤ n) :
    Res (block r) ts (Shorter ts) := by
  apply res_bind
  apply res_consume (by decide)
  rintro _ ts rfl -
  simp at h
  apply res_bind
  refine res_mono (hr.sequence _ (by omega)) ?_
  intro _ rest h1
  apply res_bind
  apply res_consume (by decide)
  rintro _ ts rfl -
  apply res_pure
  dsimp only [NoLonger, Shorter] at *; simp at *; omega

theorem res_elseBranch (hr : Ends r n) (ts : Input) (h : 2 * ts.length + 1 ≤ n) :
    Res (elseBranch r) ts (NoLonger ts) := by
  apply res_bind
  apply res_peek
  intro t _
  by_cases e : t.kind = .else_
  · rw [if_pos e]
    apply res_bind
    apply res_consume (by decide)
    rintro _ ts rfl -
    simp at h
    apply res_bind
    apply res_peek
    intro t _
    by_cases e : t.kind = .if_
    · rw [if_pos e]
      apply res_map
      refine res_mono (hr.ifExpr _ (by omega)) ?_
      intro _ rest h1
      dsimp only [NoLonger, Shorter] at *; simp; omega
    · rw [if_neg e]
      by_cases e : t.kind = .leftCurly
      · rw [if_pos e]
        apply res_map
        refine res_mono (res_block hr _ (by omega)) ?_
        intro _ rest h1
        dsimp only [NoLonger, Shorter] at *; simp; omega
      · rw [if_neg e]
        apply res_pure
        dsimp only [NoLonger]; simp
  · rw [if_neg e]
    exact res_pure (Nat.le_refl _)

theorem res_ifExpression (hr : Ends r n) (ts : Input) (h : 2 * ts.length + 1 ≤ n) :
    Res (ifExpression r) ts (Shorter ts) := by
  apply res_bind
  apply res_consume (by decide)
  rintro _ ts rfl -
  simp at h
  apply res_bind
  refine res_mono (hr.prec _ _ (by omega)) ?_
  intro _ rest h1
  apply res_bind
  refine res_mono (res_block hr _ (by dsimp only [Shorter] at *; omega)) ?_
  intro _ rest h2
  apply res_bind
  refine res_mono (res_elseBranch hr _ (by dsimp only [Shorter] at *; omega)) ?_
  intro _ rest h2
  apply res_pure
  dsimp only [NoLonger, Shorter] at *; simp at *; omega

theorem res_loop (hr : Ends r n) (ts : Input) (h : 2 * ts.length + 1 ≤ n) :
    Res (loopStatement r) ts (Shorter ts) := by
  apply res_bind
  apply res_consume (by decide)
  rintro _ ts rfl -
  simp at h
  apply res_bind
  refine res_mono (res_block hr _ (by omega)) ?_
  intro _ rest h2
  apply res_pure
  dsimp only [Shorter] at *; simp at *; omega

theorem res_while (hr : Ends r n) (ts : Input) (h : 2 * ts.length + 1 ≤ n) :
    Res (whileStatement r) ts (Shorter ts) := by
  apply res_bind
  apply res_consume (by decide)
  rintro _ ts rfl -
  simp at h
  apply res_bind
  refine res_mono (hr.prec _ _ (by omega)) ?_
  intro _ rest h1
  apply res_bind
  refine res_mono (res_block hr _ (by dsimp only [Shorter] at *; omega)) ?_
  intro _ rest h2
  apply res_pure
  dsimp only [Shorter] at *; simp at *; omega

theorem res_for (hr : Ends r n) (ts : Input) (h : 2 * ts.length + 1 ≤ n) :
    Res (forStatement r) ts (Shorter ts) := by
  apply res_bind
  apply res_consume (by decide)
  rintro _ ts rfl -
  apply res_bind
  apply res_consumeIdent
  rintro _ ts rfl -
  apply res_bind
  apply res_consume (by decide)
  rintro _ ts rfl -
  simp at h
  apply res_bind
  refine res_mono (hr.prec _ _ (by omega)) ?_
  intro _ rest h1
  apply res_bind
  refine res_mono (res_block hr _ (by dsimp only [Shorter] at *; omega)) ?_
  intro _ rest h2
  apply res_pure
  dsimp only [Shorter] at *; simp at *; omega

theorem res_controlFlow (hr : Ends r n) (ts : Input) (h : 2 * ts.length + 1 ≤ n) :
    Res (controlFlow r) ts (Shorter ts) := by
  apply res_bind
  apply res_next_kind
  · intro t _ e
    rw [e]
    exact res_fail
  · rintro t rest rfl
    have hl : rest.length < (Except.ok t :: rest : Input).length := Nat.lt_succ_self _
    split
    · exact res_pure hl
    · exact res_pure hl
    · apply res_bind
      apply res_peek
      intro t _
      by_cases e : t.kind ≠ .rightCurly
      · rw [if_pos e]
        simp at h
        apply res_bind
        refine res_mono (hr.prec _ _ (by omega)) ?_
        intro _ rest h1
        apply res_pure
        dsimp only [Shorter] at *; simp at *; omega
      · rw [if_neg e]
        exact res_pure hl
    · exact res_fail

theorem res_assignment (hr : Ends r n) (lhs : Expr) (c : Bool) (ts : Input) (h : 2 * ts.length + 1 ≤ n) :
    Res (parseAssignment r lhs c) ts (NoLonger ts) := by
  apply res_bind
  apply res_peek
  intro t ht
  split
  · next op e =>
    obtain ⟨ts, rfl⟩ := ht.cons (by intro k; rw [k] at e; cases e)
    simp at h
    apply res_bind
    apply res_next
    intro _ _
    apply res_bind
    refine res_mono (hr.prec _ _ (by simp; omega)) ?_
    intro _ rest h1
    apply res_pure
    dsimp only [NoLonger, Shorter] at *; simp at *; omega
  · exact res_pure (Nat.le_refl _)

theorem res_variable (hr : Ends r n) (c : Bool) (ts : Input) (h : 2 * ts.length + 1 ≤ n) :
    Res (variable_ r c) ts (Shorter ts) := by
  apply res_bind
  apply res_next_kind
  · intro t _ e
    rw [e]
    exact res_fail
  · rintro t rest rfl
    split
    · simp at h
      refine res_mono (res_assignment hr _ _ _ (by omega)) ?_
      intro _ rest h1
      dsimp only [NoLonger, Shorter] at *; simp at *; omega
    · exact res_fail

theorem res_varKind (ts : Input) (h : ts.length ≤ n) : Res (varKind n) ts (NoLonger ts) := by
  apply res_bind
  apply res_peek
  intro t _
  split
  · apply res_bind
    apply res_next
    intro _ _
    apply res_pure
    simp
  · apply res_map
    exact res_mono (res_fields (by decide) (by decide) _ h) fun _ _ h => Nat.le_of_lt h
  · exact res_fail

theorem res_optMut (ts : Input) : Res optMut ts (NoLonger ts) := by
  apply res_bind
  apply res_peek
  intro t _
  by_cases e : t.kind = .mut
  · rw [if_pos e]
    apply res_bind
    apply res_consume (by decide)
    rintro _ ts rfl -
    apply res_pure
    dsimp only [NoLonger]; simp
  · rw [if_neg e]
    exact res_pure (Nat.le_refl _)

theorem res_varDecl (hr : Ends r n) (ts : Input) (h : 2 * ts.length + 1 ≤ n) :
    Res (varDecl n r) ts (Shorter ts) := by
  apply res_bind
  apply res_consume (by decide)
  rintro _ ts rfl -
  simp at h
  apply res_bind
  refine res_mono (res_optMut _) ?_
  intro _ rest h1
  apply res_bind
  refine res_mono (res_varKind _ (by dsimp only [NoLonger] at *; omega)) ?_
  intro _ rest h2
  apply res_bind
  apply res_consume (by decide)
  rintro _ rest rfl -
  apply res_bind
  refine res_mono (hr.prec _ _ (by dsimp only [NoLonger] at *; simp at *; omega)) ?_
  intro _ rest h3
  apply res_pure
  dsimp only [NoLonger, Shorter] at *; simp at *; omega

theorem res_anonymousFn (hr : Ends r n) (ts : Input) (h : 2 * ts.length + 1 ≤ n) :
    Res (anonymousFn n r) ts (Shorter ts) := by
  apply res_bind
  refine res_mono (res_args (by decide) (by decide) _ (by omega)) ?_
  intro args rest h1
  by_cases e : args.length > 255
  · rw [if_pos e]; exact res_fail
  · rw [if_neg e]
    apply res_bind
    refine res_mono (hr.prec _ _ (by dsimp only [Shorter] at *; omega)) ?_
    intro _ rest h3
    apply res_pure
    dsimp only [Shorter] at *; omega

theorem res_fnDecl (hr : Ends r n) (ts : Input) (h : 2 * ts.length + 1 ≤ n) :
    Res (fnDecl n r) ts (Shorter ts) := by
  apply res_bind
  apply res_consume (by decide)
  rintro _ ts rfl -
  apply res_bind
  apply res_consumeIdent
  rintro _ ts rfl -
  simp at h
  apply res_bind
  refine res_mono (res_args (by decide) (by decide) _ (by omega)) ?_
  intro args rest h1
  by_cases e : args.length > 255
  · rw [if_pos e]; exact res_fail
  · rw [if_neg e]
    apply res_bind
    refine res_mono (res_return _) ?_
    intro _ rest h2
    apply res_bind
    refine res_mono (res_block hr _ (by dsimp only [Shorter, NoLonger] at *; omega)) ?_
    intro _ rest h3
    apply res_pure
    dsimp only [Shorter, NoLonger] at *; simp at *; omega

theorem res_opDecl (hr : Ends r n) (ts : Input) (h : 2 * ts.length + 1 ≤ n) :
    Res (opDecl n r) ts (Shorter ts) := by
  apply res_bind
  apply res_consume (by decide)
  rintro _ ts rfl -
  apply res_bind
  apply res_next
  intro t _
  simp at h
  split
  · exact res_fail
  · have hl : ts.tail.length ≤ ts.length := by simp
    apply res_bind
    refine res_mono (res_args (by decide) (by decide) _ (by omega)) ?_
    intro args rest h1
    apply res_bind
    refine res_mono (res_return _) ?_
    intro _ rest h2
    apply res_bind
    refine res_mono (res_block hr _ (by dsimp only [Shorter, NoLonger] at *; omega)) ?_
    intro _ rest h3
    apply res_pure
    dsimp only [Shorter, NoLonger] at *; simp at *; omega

theorem res_classLoop (hr : Ends r n) : ∀ (k : Nat) (ts : Input), ts.length < k →
    2 * ts.length + 1 ≤ n → Res (classLoop n r k) ts (NoLonger ts) := by
  intro k
  induction k with
  | zero => exact fun _ h => absurd h (Nat.not_lt_zero _)
  | succ k ih =>
    intro ts hk h
    apply res_bind
    apply res_peek
    intro t _
    split
    · exact res_pure (Nat.le_refl _)
    · apply res_bind
      refine res_mono (res_fnDecl hr _ h) ?_
      intro _ rest h1
      apply res_bind
      refine res_mono (ih _ (by dsimp only [Shorter] at *; omega) (by dsimp only [Shorter] at *; omega)) ?_
      intro _ rest h2
      apply res_pure
      dsimp only [Shorter, NoLonger] at *; omega
    · apply res_bind
      refine res_mono (res_opDecl hr _ h) ?_
      intro _ rest h1
      apply res_bind
      refine res_mono (ih _ (by dsimp only [Shorter] at *; omega) (by dsimp only [Shorter] at *; omega)) ?_
      intro _ rest h2
      apply res_pure
      dsimp only [Shorter, NoLonger] at *; omega
    · exact res_fail

theorem res_classBase (hr : Ends r n) (ts : Input) (h : 2 * ts.length + 1 ≤ n) :
    Res (classBase r) ts (NoLonger ts) := by
  apply res_bind
  apply res_peek
  intro t _
  by_cases e : t.kind = .colon
  · rw [if_pos e]
    apply res_bind
    apply res_consume (by decide)
    rintro _ ts rfl -
    simp at h
    apply res_map
    refine res_mono (hr.prec _ _ (by omega)) ?_
    intro _ rest h1
    dsimp only [NoLonger, Shorter] at *; simp; omega
  · rw [if_neg e]
    exact res_pure (Nat.le_refl _)

theorem res_classDecl (hr : Ends r n) (ts : Input) (h : 2 * ts.length + 1 ≤ n) :
    Res (classDecl n r) ts (Shorter ts) := by
  apply res_bind
  apply res_consume (by decide)
  rintro _ ts rfl -
  apply res_bind
  apply res_consumeIdent
  rintro _ ts rfl -
  simp at h
  apply res_bind
  refine res_mono (res_classBase hr _ (by omega)) ?_
  intro _ rest h1
  apply res_bind
  apply res_consume (by decide)
  rintro _ rest rfl -
  apply res_bind
  refine res_mono (res_classLoop hr _ _ (by dsimp only [NoLonger] at *; simp at *; omega)
    (by dsimp only [NoLonger] at *; simp at *; omega)) ?_
  intro _ rest h2
  apply res_bind
  apply res_consume (by decide)
  rintro _ rest rfl -
  apply res_pure
  dsimp only [NoLonger, Shorter] at *; simp at *; omega

theorem res_exported (hr : Ends r n) (ts : Input) (h : 2 * ts.length + 1 ≤ n) :
    Res (exported n r) ts (NoLonger ts) := by
  apply res_bind
  apply res_peek
  intro t _
  split
  · exact res_mono (res_varDecl hr _ h) fun _ _ k => Nat.le_of_lt k
  · exact res_mono (res_fnDecl hr _ h) fun _ _ k => Nat.le_of_lt k
  · exact res_mono (res_classDecl hr _ h) fun _ _ k => Nat.le_of_lt k
  · exact res_pure (Nat.le_refl _)
  · exact res_fail

theorem res_exportDecl (hr : Ends r n) (ts : Input) (h : 2 * ts.length + 1 ≤ n) :
    Res (exportDecl n r) ts (Shorter ts) := by
  apply res_bind
  apply res_consume (by decide)
  rintro _ ts rfl -
  simp at h
  apply res_bind
  refine res_mono (res_exported hr _ (by omega)) ?_
  intro _ rest h1
  apply res_pure
  dsimp only [NoLonger, Shorter] at *; simp at *; omega

theorem res_statement (hr : Ends r n) (ts : Input) (h : 2 * ts.length + 2 ≤ n) :
    Res (statement n r) ts (Shorter ts) := by
  have h' : 2 * ts.length + 1 ≤ n := by omega
  apply res_bind
  apply res_peek
  intro t _
  split
  · exact res_loop hr _ h'
  · exact res_while hr _ h'
  · exact res_for hr _ h'
  · exact res_varDecl hr _ h'
  · exact res_fnDecl hr _ h'
  · exact res_opDecl hr _ h'
  · exact res_classDecl hr _ h'
  · exact res_importDecl _ (by omega)
  · exact res_exportDecl hr _ h'
  · exact res_controlFlow hr _ h'
  · exact res_controlFlow hr _ h'
  · exact res_controlFlow hr _ h'
  · exact hr.prec _ _ h

theorem res_sequenceLoop (hr : Ends r n) : ∀ (k : Nat) (ts : Input), ts.length < k →
    2 * ts.length + 2 ≤ n → Res (sequenceLoop n r k) ts (NoLonger ts) := by
  intro k
  induction k with
  | zero => exact fun _ h => absurd h (Nat.not_lt_zero _)
  | succ k ih =>
    intro ts hk h
    apply res_bind
    apply res_peek
    intro t _
    split
    · exact res_pure (Nat.le_refl _)
    · apply res_bind
      refine res_mono (res_statement hr _ h) ?_
      intro _ rest h1
      apply res_bind
      apply res_peek
      intro t _
      split
      · exact res_pure (Nat.le_of_lt h1)
      · apply res_bind
        refine res_mono (ih _ (by dsimp only [Shorter] at *; omega) (by dsimp only [Shorter] at *; omega)) ?_
        intro _ rest h2
        apply res_pure
        dsimp only [Shorter, NoLonger] at *; omega

theorem res_sequence (hr : Ends r n) (ts : Input) (h : 2 * ts.length + 2 ≤ n) :
    Res (sequence n r) ts (NoLonger ts) := by
  apply res_bind
  refine res_mono (res_sequenceLoop hr _ _ (by omega) h) ?_
  intro _ rest h1
  exact res_pure h1

theorem res_grouping (hr : Ends r n) (ts : Input) (h : 2 * ts.length + 1 ≤ n) :
    Res (grouping r) ts (Shorter ts) := by
  apply res_bind
  apply res_consume (by decide)
  rintro _ ts rfl -
  simp at h
  apply res_bind
  apply res_peek
  intro t _
  by_cases e : t.kind = .rightParen
  · rw [if_pos e]
    apply res_bind
    apply res_consume (by decide)
    rintro _ ts rfl -
    apply res_pure
    dsimp only [Shorter]; simp; omega
  · rw [if_neg e]
    apply res_bind
    refine res_mono (hr.prec _ _ (by omega)) ?_
    intro _ rest h1
    apply res_bind
    apply res_consume (by decide)
    rintro _ ts rfl -
    apply res_pure
    dsimp only [Shorter] at *; simp at *; omega

theorem res_itemsLoop (hr : Ends r n) (close : Kind) : ∀ (k : Nat) (ts : Input), ts.length < k →
    2 * ts.length + 2 ≤ n → Res (itemsLoop r close k) ts (NoLonger ts) := by
  intro k
  induction k with
  | zero => exact fun _ h => absurd h (Nat.not_lt_zero _)
  | succ k ih =>
    intro ts hk h
    apply res_bind
    apply res_peek
    intro t _
    by_cases e : t.kind = close
    · rw [if_pos e]; exact res_pure (Nat.le_refl _)
    · rw [if_neg e]
      apply res_bind
      refine res_mono (hr.prec _ _ h) ?_
      intro _ rest h1
      apply res_bind
      refine res_mono (res_separator _ _) ?_
      intro _ rest' h2
      apply res_bind
      refine res_mono (ih _ (by dsimp only [Shorter, NoLonger] at *; omega)
        (by dsimp only [Shorter, NoLonger] at *; omega)) ?_
      intro _ rest'' h3
      apply res_pure
      dsimp only [Shorter, NoLonger] at *; omega

theorem res_objectKey (ts : Input) : Res objectKey ts (Shorter ts) := by
  apply res_bind
  apply res_next_kind
  · intro t _ e
    rw [e]
    exact res_fail
  · rintro t rest rfl
    split
    · exact res_pure (Nat.lt_succ_self _)
    · exact res_fail

theorem res_objectLoop (hr : Ends r n) : ∀ (k : Nat) (ts : Input), ts.length < k →
    2 * ts.length + 2 ≤ n → Res (objectLoop r k) ts (NoLonger ts) := by
  intro k
  induction k with
  | zero => exact fun _ h => absurd h (Nat.not_lt_zero _)
  | succ k ih =>
    intro ts hk h
    apply res_bind
    apply res_peek
    intro t _
    by_cases e : t.kind = .rightCurly
    · rw [if_pos e]; exact res_pure (Nat.le_refl _)
    · rw [if_neg e]
      apply res_bind
      refine res_mono (res_objectKey _) ?_
      intro _ rest h0
      apply res_bind
      apply res_consume (by decide)
      rintro _ rest rfl -
      apply res_bind
      refine res_mono (hr.prec _ _ (by dsimp only [Shorter] at *; simp at *; omega)) ?_
      intro _ rest h1
      apply res_bind
      refine res_mono (res_separator _ _) ?_
      intro _ rest' h2
      apply res_bind
      refine res_mono (ih _ (by dsimp only [Shorter, NoLonger] at *; simp at *; omega)
        (by dsimp only [Shorter, NoLonger] at *; simp at *; omega)) ?_
      intro _ rest'' h3
      apply res_pure
      dsimp only [Shorter, NoLonger] at *; simp at *; omega

theorem res_object (hr : Ends r n) (ts : Input) (h : 2 * ts.length + 1 ≤ n) :
    Res (object n r) ts (Shorter ts) := by
  apply res_bind
  apply res_consume (by decide)
  rintro _ ts rfl -
  apply res_bind
  apply res_consume (by decide)
  rintro _ ts rfl -
  simp at h
  apply res_bind
  refine res_mono (res_objectLoop hr _ _ (by omega) (by omega)) ?_
  intro _ rest h1
  apply res_bind
  apply res_consume (by decide)
  rintro _ ts rfl -
  apply res_pure
  dsimp only [Shorter, NoLonger] at *; simp at *; omega

/-- An opening token, comma-separated expressions and a closing token. -/
theorem res_items (hr : Ends r n) {o c : Kind} (ho : o ≠ .endOfInput) (hc : c ≠ .endOfInput)
    (f : List Expr → Expr) (ts : Input) (h : 2 * ts.length + 1 ≤ n) :
    Res (do consume o; let es ← itemsLoop r c n; consume c; pure (f es)) ts (Shorter ts) := by
  apply res_bind
  apply res_consume ho
  rintro _ ts rfl -
  simp at h
  apply res_bind
  refine res_mono (res_itemsLoop hr _ _ _ (by omega) (by omega)) ?_
  intro _ rest h1
  apply res_bind
  apply res_consume hc
  rintro _ ts rfl -
  apply res_pure
  dsimp only [Shorter, NoLonger] at *; simp at *; omega

theorem res_fnCall (hr : Ends r n) (lhs : Expr) (ts : Input) (h : 2 * ts.length + 1 ≤ n) :
    Res (fnCall n r lhs) ts (Shorter ts) := by
  apply res_bind
  apply res_peek
  intro t ht
  by_cases e : t.kind = .backslashArg
  · rw [if_pos e]
    obtain ⟨rest, rfl⟩ := ht.cons (e ▸ nofun)
    apply res_bind
    apply res_next
    intro _ _
    apply res_pure
    simp
  · rw [if_neg e]
    exact res_items hr (by decide) (by decide) (.call lhs) _ h

theorem res_superMethodAccess (ts : Input) : Res superMethodAccess ts (Shorter ts) := by
  have tail : ∀ (c : Option String) (rest : Input), rest.length ≤ ts.length →
      Res (do consume .dot; let field ← consumeIdent; pure (Expr.superAccess field c)) rest (Shorter ts) := by
    intro c rest h
    apply res_bind
    apply res_consume (by decide)
    rintro _ rest rfl -
    apply res_bind
    apply res_consumeIdent
    rintro _ rest rfl -
    apply res_pure
    dsimp only [Shorter]; simp at h; omega
  apply res_bind
  apply res_bind
  apply res_peek
  intro t _
  by_cases e : t.kind = .leftSquare
  · rw [if_pos e]
    apply res_bind
    apply res_consume (by decide)
    rintro _ rest rfl -
    apply res_bind
    apply res_consumeIdent
    rintro _ rest rfl -
    apply res_bind
    apply res_consume (by decide)
    rintro _ rest rfl -
    apply res_pure
    exact tail _ _ (by simp; omega)
  · rw [if_neg e]
    apply res_pure
    exact tail _ _ (Nat.le_refl _)

theorem res_superAccess (hr : Ends r n) (ts : Input) (h : 2 * ts.length + 1 ≤ n) :
    Res (superAccess n r) ts (Shorter ts) := by
  apply res_bind
  apply res_consume (by decide)
  rintro _ ts rfl -
  simp at h
  apply res_bind
  apply res_peek
  intro t _
  split
  · exact res_mono (res_superMethodAccess _) fun _ _ k => Nat.lt_succ_of_lt k
  · exact res_mono (res_superMethodAccess _) fun _ _ k => Nat.lt_succ_of_lt k
  · exact res_mono (res_items hr (by decide) (by decide) .superCall _ (by omega))
      fun _ _ k => Nat.lt_succ_of_lt k
  · exact res_fail

theorem res_prefixOperator (hr : Ends r n) (t : Token) (ts : Input) (ht : Head t ts)
    (hk : t.kind = .minus ∨ t.kind = .not) (h : 2 * ts.length + 1 ≤ n) :
    Res (prefixOperator r) ts (Shorter ts) := by
  obtain ⟨ts, rfl⟩ := ht.cons (by rcases hk with e | e <;> rw [e] <;> nofun)
  simp at h
  apply res_bind
  apply res_next
  intro t' ht'
  have e : t' = t := ht'
  subst e
  apply res_bind
  refine res_mono (hr.prec _ _ (by simp; omega)) ?_
  intro _ rest h1
  have h2 : rest.length < (Except.ok t' :: ts : Input).length := Nat.lt_succ_of_lt h1
  rcases hk with e | e <;> rw [e] <;> exact res_pure h2

theorem binaryOp_some {k : Kind} {rule : Rule} {p : Precedence} (h : ruleFor k = some rule)
    (h' : rule.infix_ = some (.binaryOperator, p)) : ∃ op, binaryOp k = some op := by
  cases k <;> first | exact ⟨_, rfl⟩ | (exfalso; first | cases h; cases h' | cases h)

theorem prefixOperator_kind {k : Kind} {rule : Rule} (h : ruleFor k = some rule)
    (h' : rule.prefix_ = some .prefixOperator) : k = .minus ∨ k = .not := by
  cases k <;> first | exact .inl rfl | exact .inr rfl | (exfalso; first | cases h; cases h' | cases h)

theorem res_binaryOperator (hr : Ends r n) (lhs : Expr) (t : Token) (ts : Input) (ht : Head t ts)
    (p : Precedence) (hk : ∃ rule, ruleFor t.kind = some rule ∧ rule.infix_ = some (.binaryOperator, p))
    (h : 2 * ts.length + 1 ≤ n) :
    Res (binaryOperator r lhs) ts (Shorter ts) := by
  obtain ⟨rule, hrule, hinfix⟩ := hk
  obtain ⟨ts, rfl⟩ := ht.cons (by intro e; rw [e] at hrule; cases hrule; cases hinfix)
  simp at h
  apply res_bind
  apply res_next
  intro t' ht'
  have e : t' = t := ht'
  subst e
  split
  · next e =>
    obtain ⟨op, e'⟩ := binaryOp_some hrule hinfix
    rw [e'] at e
    cases e
  · apply res_bind
    refine res_mono (Q := NoLonger ts) ?_ ?_
    · unfold secondPipe
      split
      · apply res_consume (by decide)
        rintro _ ts rfl -
        simp
      · exact res_pure (Nat.le_refl _)
    · intro _ rest h0
      apply res_bind
      unfold ruleOf
      rw [hrule]
      apply res_pure
      rw [hinfix]
      apply res_bind
      refine res_mono (hr.prec _ _ (by dsimp only [NoLonger] at *; omega)) ?_
      intro _ rest h1
      apply res_pure
      dsimp only [Shorter, NoLonger] at *; simp at *; omega

theorem res_errorCoalesce (hr : Ends r n) (lhs : Expr) (ts : Input) (h : 2 * ts.length + 1 ≤ n) :
    Res (errorCoalesce r lhs) ts (Shorter ts) := by
  apply res_bind
  apply res_consume (by decide)
  rintro _ ts rfl -
  apply res_bind
  apply res_consumeIdent
  rintro _ ts rfl -
  simp at h
  apply res_bind
  refine res_mono (res_block hr _ (by omega)) ?_
  intro _ rest h1
  apply res_pure
  dsimp only [Shorter] at *; simp at *; omega

theorem res_indexAccess (hr : Ends r n) (lhs : Expr) (c : Bool) (ts : Input) (h : 2 * ts.length + 1 ≤ n) :
    Res (indexAccess r lhs c) ts (Shorter ts) := by
  apply res_bind
  apply res_consume (by decide)
  rintro _ ts rfl -
  simp at h
  apply res_bind
  refine res_mono (hr.prec _ _ (by omega)) ?_
  intro _ rest h1
  apply res_bind
  apply res_consume (by decide)
  rintro _ rest rfl -
  refine res_mono (res_assignment hr _ _ _ (by dsimp only [Shorter] at *; simp at *; omega)) ?_
  intro _ rest h2
  dsimp only [Shorter, NoLonger] at *; simp at *; omega

theorem res_fieldAccess (hr : Ends r n) (lhs : Expr) (c : Bool) (ts : Input) (h : 2 * ts.length + 1 ≤ n) :
    Res (fieldAccess r lhs c) ts (Shorter ts) := by
  apply res_bind
  apply res_consume (by decide)
  rintro _ ts rfl -
  apply res_bind
  apply res_consumeIdent
  rintro _ rest rfl -
  refine res_mono (res_assignment hr _ _ _ (by simp at h; omega)) ?_
  intro _ rest h2
  dsimp only [Shorter, NoLonger] at *; simp at *; omega

theorem res_isOperator (lhs : Expr) (ts : Input) : Res (isOperator lhs) ts (Shorter ts) := by
  apply res_bind
  refine res_mono (res_typeAnnotation (by decide) _) ?_
  intro _ _ h
  exact res_pure h

theorem res_runPrefix (hr : Ends r n) (f : PrefixRule) (c : Bool) (t : Token) (ts : Input) (ht : Head t ts)
    (hk : ∃ rule, ruleFor t.kind = some rule ∧ rule.prefix_ = some f) (h : 2 * ts.length + 1 ≤ n) :
    Res (runPrefix n r f c) ts (Shorter ts) := by
  cases f with
  | literal => exact res_literal _
  | «variable» => exact res_variable hr _ _ h
  | ifExpression => exact res_ifExpression hr _ h
  | object => exact res_object hr _ h
  | list => exact res_items hr (by decide) (by decide) .list _ h
  | superAccess => exact res_superAccess hr _ h
  | grouping => exact res_grouping hr _ h
  | blockExpression => exact res_block hr _ h
  | anonymousFn => exact res_anonymousFn hr _ h
  | prefixOperator =>
    obtain ⟨rule, h1, h2⟩ := hk
    exact res_prefixOperator hr t _ ht (prefixOperator_kind h1 h2) h

theorem res_runInfix (hr : Ends r n) (f : InfixRule) (p : Precedence) (e : Expr) (c : Bool) (t : Token)
    (ts : Input) (ht : Head t ts) (hk : ∃ rule, ruleFor t.kind = some rule ∧ rule.infix_ = some (f, p))
    (h : 2 * ts.length + 1 ≤ n) : Res (runInfix n r f e c) ts (Shorter ts) := by
  cases f with
  | indexAccess => exact res_indexAccess hr _ _ _ h
  | fieldAccess => exact res_fieldAccess hr _ _ _ h
  | fnCall => exact res_fnCall hr _ _ h
  | binaryOperator => exact res_binaryOperator hr _ t _ ht p hk h
  | errorCoalesce => exact res_errorCoalesce hr _ _ h
  | isOperator => exact res_isOperator _ _

theorem res_runPostfix (f : PostfixRule) (e : Expr) (ts : Input) :
    Res (runPostfix f e) ts (Shorter ts) := by
  cases f <;>
  · apply res_bind
    apply res_consume (by decide)
    rintro _ ts rfl -
    apply res_pure
    simp

theorem res_precLoop (hr : Ends r n) (p : Precedence) : ∀ (k : Nat) (node : Expr) (ts : Input),
    ts.length < k → 2 * ts.length + 1 ≤ n → Res (precLoop n r p k node) ts (NoLonger ts) := by
  intro k
  induction k with
  | zero => exact fun _ _ h => absurd h (Nat.not_lt_zero _)
  | succ k ih =>
    intro node ts hk h
    apply res_bind
    apply res_peek
    intro t ht
    apply res_bind
    apply res_ruleOf t ht rfl
    intro rule hrule
    split
    · split
      · exact res_pure (Nat.le_refl _)
      · apply res_bind
        refine res_mono (res_runPostfix _ _ _) ?_
        intro _ rest h1
        refine res_mono (ih _ _ (by dsimp only [Shorter] at *; omega) (by dsimp only [Shorter] at *; omega)) ?_
        intro _ rest h2
        dsimp only [Shorter, NoLonger] at *; omega
    · split
      · next f q e =>
        split
        · exact res_pure (Nat.le_refl _)
        · apply res_bind
          refine res_mono (res_runInfix hr f q _ _ t _ ht ⟨rule, hrule, e⟩ h) ?_
          intro _ rest h1
          refine res_mono (ih _ _ (by dsimp only [Shorter] at *; omega) (by dsimp only [Shorter] at *; omega)) ?_
          intro _ rest h2
          dsimp only [Shorter, NoLonger] at *; omega
      · exact res_pure (Nat.le_refl _)

theorem res_parsePrecedence (hr : Ends r n) (p : Precedence) (ts : Input) (h : 2 * ts.length + 1 ≤ n) :
    Res (parsePrecedence n r p) ts (Shorter ts) := by
  apply res_bind
  apply res_peek
  intro t ht
  apply res_bind
  apply res_ruleOf t ht rfl
  intro rule hrule
  split
  · exact res_fail
  · next f e =>
    apply res_bind
    refine res_mono (res_runPrefix hr f _ t _ ht ⟨rule, hrule, e⟩ h) ?_
    intro _ rest h1
    refine res_mono (res_precLoop hr _ _ _ _ (by dsimp only [Shorter] at *; omega)
      (by dsimp only [Shorter] at *; omega)) ?_
    intro _ rest h2
    dsimp only [Shorter, NoLonger] at *; omega

theorem parser_ends : ∀ n, Ends (parser n) n := by
  intro n
  induction n with
  | zero => exact ⟨fun _ _ h => absurd h (by omega), fun _ h => absurd h (by omega), fun _ h => absurd h (by omega)⟩
  | succ n ih =>
    exact ⟨fun p ts h => res_parsePrecedence ih p ts (by omega), fun ts h => res_sequence ih ts (by omega),
      fun ts h => res_ifExpression ih ts (by omega)⟩

/-- C38: on every token sequence the parser ends with a tree, with an error value, or, only if the sequence
has a token of a kind without a rule, with a panic.  In particular the recursion bound is never reached. -/
theorem parse_ends_partial (ts : Input) :
    (∃ e, parseTokens ts = .ok e) ∨ (∃ e, parseTokens ts = .error (.error e)) ∨
      (parseTokens ts = .error .panic ∧ ∃ t : Token, .ok t ∈ ts ∧
        t.kind ∈ [Kind.arrow, .wideArrow, .else_, .mut, .in_, .as, .from_, .reserved, .error]) := by
  have h := (parser_ends (enough ts)).sequence ts (Nat.le_refl _)
  unfold Res at h
  unfold parseTokens
  split at h
  · next a rest e => rw [e]; exact .inl ⟨a, rfl⟩
  · exact h.elim
  · next e => rw [e]; exact .inr (.inr ⟨rfl, h⟩)
  · next x e => rw [e]; exact .inr (.inl ⟨x, rfl⟩)

/-- What became of parsing: a tree, an error value or a panic. -/
def Outcome (source : String) : Option Bool :=
  match parseSource source with
  | .ok _ => some true
  | .error .panic => none
  | .error _ => some false

/-- C38, the part that fails: the parser aborts on some sources. -/
theorem parser_panics : Outcome "in" = none ∧ Outcome "1 else 2" = none := by decide +kernel

/-- A source with most of the kinds of token without a rule, which parses, and one with an error. -/
example : Outcome ("import * as m from \"p\" let mut x = 1 for i in x { if x { 1 } else { 2 } } " ++
    "fn f() -> Int { x }") = some true ∧ Outcome "(1" = some false := by decide +kernel

end Dice.Parser
