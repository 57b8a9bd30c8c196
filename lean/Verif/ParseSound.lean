import Verif.ParseProps
import Verif.Grammar

/-!
# The parser builds what the grammar says

C37 and C39, one direction: the tree of a successful parse is written by the tokens that were consumed.
-/

namespace Dice.Parser

open Dice.Grammar

/-- When `p` succeeds on `ts`, `Q` holds of the result. -/
def Post {α : Type} (p : P α) (ts : Input) (Q : α → Input → Prop) : Prop :=
  ∀ a rest, p ts = .ok (a, rest) → Q a rest

/-- The tokens `us` were consumed. -/
def Took (us : List Token) (ts rest : Input) : Prop := ts = us.map .ok ++ rest

/-- An assignment token. -/
def isAssign (k : Kind) : Prop := ∃ op, assignKind op = k

/-- The next token, unless it is an assignment token, satisfies `f`. -/
def Next (f : Kind → Prop) (rest : Input) : Prop := ∀ t, Head t rest → isAssign t.kind ∨ f t.kind

theorem Took.nil (ts : Input) : Took [] ts ts := rfl

theorem Took.cons {t : Token} {us : List Token} {ts rest : Input} (h : Took us ts rest) :
    Took (t :: us) (.ok t :: ts) rest := by
  unfold Took at h ⊢; rw [h]; rfl

theorem Took.append {us vs : List Token} {ts mid rest : Input} (h : Took us ts mid) (h' : Took vs mid rest) :
    Took (us ++ vs) ts rest := by
  unfold Took at h h' ⊢; rw [h, h', List.map_append, List.append_assoc]

theorem Took.snoc {us : List Token} {t : Token} {ts rest : Input} (h : Took us ts (.ok t :: rest)) :
    Took (us ++ [t]) ts rest :=
  h.append (Took.cons (Took.nil _))

/-- Composes `Took` hypotheses. -/
macro "took" : tactic => `(tactic| (unfold Took at *; subst_vars; simp))

theorem Head.eq {t u : Token} {ts : Input} (h : Head t ts) (h' : Head u ts) : t = u := by
  cases ts with
  | nil => cases h; cases h'; rfl
  | cons x ts =>
    cases x with
    | error e => exact h.elim
    | ok v => cases h; cases h'; rfl

theorem Next.get {f : Kind → Prop} {t : Token} {rest : Input} {k : Kind} (h : Next f (.ok t :: rest))
    (e : t.kind = k) (n : ¬isAssign k) : f k := by
  rcases h t rfl with a | a
  · rw [e] at a; exact absurd a n
  · rwa [e] at a

theorem Next.any (rest : Input) : Next any rest := fun _ _ => .inr trivial

theorem Next.mono {f g : Kind → Prop} {rest : Input} (h : Next f rest) (m : ∀ k, f k → g k) :
    Next g rest := fun t ht => (h t ht).imp id (m _)

theorem not_assign {k : Kind} (h : k ∉ [Kind.assign, .mulAssign, .divAssign, .addAssign, .subAssign]) :
    ¬isAssign k := by
  rintro ⟨op, rfl⟩
  cases op <;> simp [assignKind] at h

theorem post_bind {α β : Type} {p : P α} {f : α → P β} {ts : Input} {Q : β → Input → Prop}
    (h : Post p ts fun a rest => Post (f a) rest Q) : Post (p >>= f) ts Q := by
  intro b rest e
  have e : P.bind p f ts = .ok (b, rest) := e
  unfold P.bind at e
  split at e
  · next a mid e' => exact h a mid e' b rest e
  · cases e

theorem post_pure {α : Type} {a : α} {ts : Input} {Q : α → Input → Prop} (h : Q a ts) :
    Post (pure a) ts Q := by
  intro b rest e
  cases e
  exact h

theorem post_fail {α : Type} {e : SyntaxErr} {ts : Input} {Q : α → Input → Prop} :
    Post (P.fail e) ts Q := nofun

theorem post_panic {α : Type} {ts : Input} {Q : α → Input → Prop} : Post P.panic ts Q := nofun

theorem post_fuel {α : Type} {ts : Input} {Q : α → Input → Prop} : Post P.outOfFuel ts Q := nofun

theorem post_mono {α : Type} {p : P α} {ts : Input} {Q Q' : α → Input → Prop} (h : Post p ts Q)
    (k : ∀ a rest, Q a rest → Q' a rest) : Post p ts Q' := fun a rest e => k a rest (h a rest e)

theorem post_map {α β : Type} {f : α → β} {p : P α} {ts : Input} {Q : β → Input → Prop}
    (h : Post p ts fun a rest => Q (f a) rest) : Post (f <$> p) ts Q :=
  post_bind (f := fun a => pure (f a)) (post_mono h fun _ _ k => post_pure k)

theorem post_peek {ts : Input} {Q : Token → Input → Prop} (h : ∀ t, Head t ts → Q t ts) :
    Post peekToken ts Q := by
  intro a rest e
  cases ts with
  | nil => cases e; exact h _ rfl
  | cons x ts =>
    cases x with
    | error x => cases e
    | ok t => cases e; exact h _ rfl

theorem post_next {ts : Input} {Q : Token → Input → Prop} (h : ∀ t, Head t ts → Q t ts.tail) :
    Post nextToken ts Q := by
  intro a rest e
  cases ts with
  | nil => cases e; exact h _ rfl
  | cons x ts =>
    cases x with
    | error x => cases e
    | ok t => cases e; exact h _ rfl

/-- Taking the next token, when what follows fails at the end of the input. -/
theorem post_next_kind {ts : Input} {Q : Token → Input → Prop} (h : Q eoi [])
    (h' : ∀ t rest, ts = .ok t :: rest → Q t rest) : Post nextToken ts Q := by
  intro a rest e
  cases ts with
  | nil => cases e; exact h
  | cons x ts =>
    cases x with
    | error x => cases e
    | ok t => cases e; exact h' _ _ rfl

theorem post_consume {k : Kind} {ts : Input} {Q : Unit → Input → Prop} (hk : k ≠ .endOfInput)
    (h : ∀ t rest, ts = .ok t :: rest → t.kind = k → Q () rest) : Post (consume k) ts Q := by
  apply post_bind
  apply post_next_kind
  · rw [if_neg (show ¬eoi.kind = k from Ne.symm hk)]; exact post_fail
  · rintro t rest rfl
    by_cases e : t.kind = k
    · rw [if_pos e]; exact post_pure (h t rest rfl e)
    · rw [if_neg e]; exact post_fail

theorem post_consumeIdent {ts : Input} {Q : String → Input → Prop}
    (h : ∀ t rest, ts = .ok t :: rest → t.kind = .identifier → Q t.text rest) :
    Post consumeIdent ts Q := by
  apply post_bind
  apply post_next_kind
  · exact post_fail
  · rintro t rest rfl
    by_cases e : t.kind = .identifier
    · rw [if_pos e]; exact post_pure (h t rest rfl e)
    · rw [if_neg e]; exact post_fail

theorem post_consumeString {ts : Input} {Q : String → Input → Prop}
    (h : ∀ t rest, ts = .ok t :: rest → t.kind = .string → Q t.text rest) :
    Post consumeString ts Q := by
  apply post_bind
  apply post_next_kind
  · exact post_fail
  · rintro t rest rfl
    by_cases e : t.kind = .string
    · rw [if_pos e]; exact post_pure (h t rest rfl e)
    · rw [if_neg e]; exact post_fail

theorem post_ruleOf {k : Kind} {ts : Input} {Q : Rule → Input → Prop}
    (h : ∀ rule, ruleFor k = some rule → Q rule ts) : Post (ruleOf k) ts Q := by
  unfold ruleOf
  split
  · next rule e => exact post_pure (h rule e)
  · exact post_panic

/-! ## Parts without expressions -/

theorem post_typeAnnotation {d : Kind} (hd : d ≠ .endOfInput) (ts : Input) :
    Post (parseTypeAnnotation d) ts fun a rest => ∃ t n : Token, t.kind = d ∧ n.kind = .identifier ∧
      a.name = n.text ∧
      ((a.isNullable = false ∧ Took [t, n] ts rest ∧ Next (· ≠ .questionMark) rest) ∨
        ∃ q : Token, q.kind = .questionMark ∧ a.isNullable = true ∧ Took [t, n, q] ts rest) := by
  apply post_bind
  refine post_consume hd ?_
  rintro t ts rfl ht
  apply post_bind
  refine post_consumeIdent ?_
  rintro n ts rfl hn
  apply post_bind
  apply post_peek
  intro u hu
  by_cases e : u.kind = .questionMark
  · rw [if_pos e]
    apply post_bind
    refine post_consume (by decide) ?_
    rintro q ts rfl hq
    exact post_pure ⟨t, n, ht, hn, rfl, .inr ⟨q, hq, rfl, rfl⟩⟩
  · rw [if_neg e]
    refine post_pure ⟨t, n, ht, hn, rfl, .inl ⟨rfl, rfl, ?_⟩⟩
    intro u' hu'
    rw [hu'.eq hu]
    exact .inr e

theorem post_ann {d : Kind} (hd : d ≠ .endOfInput) (ts : Input) :
    Post (parseTypeAnnotation d) ts fun a rest => ∃ (t : Token) (us : List Token), t.kind = d ∧ Ann a us ∧
      Took (t :: us) ts rest := by
  refine post_mono (post_typeAnnotation hd ts) ?_
  rintro ⟨name, nullable⟩ rest ⟨t, n, ht, hn, e, h⟩
  dsimp only at e h
  subst e
  rcases h with ⟨e, h, -⟩ | ⟨q, hq, e, h⟩
  · subst e
    exact ⟨t, [n], ht, .plain n hn, h⟩
  · subst e
    exact ⟨t, [n, q], ht, .nullable n q hn hq, h⟩

theorem post_return (ts : Input) :
    Post parseReturn ts fun a rest => ∃ us, Ret a us ∧ Took us ts rest := by
  apply post_bind
  apply post_peek
  intro t _
  by_cases e : t.kind = .arrow
  · rw [if_pos e]
    apply post_map
    refine post_mono (post_ann (by decide) _) ?_
    rintro a rest ⟨t, us, ht, ha, h⟩
    exact ⟨_, .some t a us ht ha, h⟩
  · rw [if_neg e]
    exact post_pure ⟨[], .none, rfl⟩

theorem post_param (name : Token) (hn : name.kind = .identifier) (ts : Input) :
    Post parseArgType ts fun a rest => ∃ us, Param ⟨name.text, a⟩ (name :: us) ∧ Took us ts rest := by
  apply post_bind
  apply post_peek
  intro t _
  by_cases e : t.kind = .colon
  · rw [if_pos e]
    apply post_map
    refine post_mono (post_ann (by decide) _) ?_
    rintro a rest ⟨t, us, ht, ha, h⟩
    exact ⟨_, .typed name t a us hn ht ha, h⟩
  · rw [if_neg e]
    exact post_pure ⟨[], .untyped name hn, rfl⟩

theorem post_separator (close : Kind) (ts : Input) :
    Post (separator close) ts fun _ rest => (∃ c : Token, c.kind = .comma ∧ Took [c] ts rest) ∨
      (ts = rest ∧ ∃ t, Head t rest ∧ t.kind = close) := by
  apply post_bind
  apply post_peek
  intro t ht
  by_cases e : t.kind = .comma
  · rw [if_pos e]
    obtain ⟨ts, rfl⟩ := ht.cons (e ▸ nofun)
    apply post_bind
    apply post_next
    intro u hu
    cases hu
    exact post_pure (.inl ⟨t, e, rfl⟩)
  · rw [if_neg e]
    by_cases e' : t.kind ≠ close
    · rw [if_pos e']; exact post_fail
    · rw [if_neg e']
      exact post_pure (.inr ⟨rfl, t, ht, Decidable.not_not.1 e'⟩)

theorem post_argsLoop (close : Kind) : ∀ (n : Nat) (ts : Input),
    Post (argsLoop n close) ts fun as rest => (∃ us, Params as us ∧ Took us ts rest) ∧
      ((∃ t, Head t ts ∧ t.kind = close) → as = [] ∧ ts = rest) := by
  intro n
  induction n with
  | zero => exact fun _ => post_fuel
  | succ n ih =>
    intro ts
    apply post_bind
    apply post_peek
    intro t ht
    by_cases e : t.kind = close
    · rw [if_pos e]
      exact post_pure ⟨⟨[], .nil, rfl⟩, fun _ => ⟨rfl, rfl⟩⟩
    · rw [if_neg e]
      apply post_bind
      refine post_consumeIdent ?_
      rintro name ts rfl hn
      apply post_bind
      refine post_mono (post_param name hn _) ?_
      rintro a mid ⟨us, hp, h1⟩
      apply post_bind
      refine post_mono (post_separator _ _) ?_
      intro _ mid' h2
      apply post_bind
      refine post_mono (ih _) ?_
      rintro as rest ⟨⟨vs, hps, h3⟩, h4⟩
      refine post_pure ⟨?_, fun ⟨u, hu, hk⟩ => absurd (hu.eq ht ▸ hk) e⟩
      rcases h2 with ⟨c, hc, h2⟩ | ⟨rfl, h2⟩
      · exact ⟨_, .cons _ _ c _ _ hp hc hps, (h1.cons).append (by unfold Took at h2; rw [h2]; exact h3.cons)⟩
      · obtain ⟨e1, e2⟩ := h4 h2
        subst e1 e2
        exact ⟨_, .last _ _ hp, h1.cons⟩

theorem post_args {n : Nat} {o c : Kind} (ho : o ≠ .endOfInput) (hc : c ≠ .endOfInput) (ts : Input) :
    Post (parseArgs n o c) ts fun as rest => ∃ (t u : Token) (us : List Token), t.kind = o ∧ u.kind = c ∧
      Params as us ∧ Took (t :: us ++ [u]) ts rest := by
  apply post_bind
  refine post_consume ho ?_
  rintro t ts rfl ht
  apply post_bind
  refine post_mono (post_argsLoop c n ts) ?_
  rintro as rest ⟨⟨us, h1, h2⟩, -⟩
  apply post_bind
  refine post_consume hc ?_
  rintro u rest rfl hu
  exact post_pure ⟨t, u, us, ht, hu, h1, (h2.snoc).cons⟩

theorem post_fieldsLoop (close : Kind) : ∀ (n : Nat) (ts : Input),
    Post (fieldsLoop n close) ts fun as rest => (∃ us, Names as us ∧ Took us ts rest) ∧
      ((∃ t, Head t ts ∧ t.kind = close) → as = [] ∧ ts = rest) := by
  intro n
  induction n with
  | zero => exact fun _ => post_fuel
  | succ n ih =>
    intro ts
    apply post_bind
    apply post_peek
    intro t ht
    by_cases e : t.kind = close
    · rw [if_pos e]
      exact post_pure ⟨⟨[], .nil, rfl⟩, fun _ => ⟨rfl, rfl⟩⟩
    · rw [if_neg e]
      apply post_bind
      refine post_consumeIdent ?_
      rintro name ts rfl hn
      apply post_bind
      refine post_mono (post_separator _ _) ?_
      intro _ mid' h2
      apply post_bind
      refine post_mono (ih _) ?_
      rintro as rest ⟨⟨vs, hps, h3⟩, h4⟩
      refine post_pure ⟨?_, fun ⟨u, hu, hk⟩ => absurd (hu.eq ht ▸ hk) e⟩
      rcases h2 with ⟨c, hc, h2⟩ | ⟨rfl, h2⟩
      · exact ⟨_, .cons name c _ _ hn hc hps, by unfold Took at h2; rw [h2]; exact h3.cons.cons⟩
      · obtain ⟨e1, e2⟩ := h4 h2
        subst e1 e2
        exact ⟨_, .last _ hn, rfl⟩

theorem post_fields {n : Nat} {o c : Kind} (ho : o ≠ .endOfInput) (hc : c ≠ .endOfInput) (ts : Input) :
    Post (parseFields n o c) ts fun as rest => ∃ (t u : Token) (us : List Token), t.kind = o ∧ u.kind = c ∧
      Names as us ∧ Took (t :: us ++ [u]) ts rest := by
  apply post_bind
  refine post_consume ho ?_
  rintro t ts rfl ht
  apply post_bind
  refine post_mono (post_fieldsLoop c n ts) ?_
  rintro as rest ⟨⟨us, h1, h2⟩, -⟩
  apply post_bind
  refine post_consume hc ?_
  rintro u rest rfl hu
  exact post_pure ⟨t, u, us, ht, hu, h1, (h2.snoc).cons⟩

theorem isDigitChar_iff {c : Char} : isDigitChar c = true ↔ '0' ≤ c ∧ c ≤ '9' := by
  simp [isDigitChar]

theorem digitsValue_snoc (cs : List Char) (c : Char) :
    digitsValue (cs ++ [c]) = 10 * digitsValue cs + (c.toNat - '0'.toNat) := by
  simp [digitsValue, digitValue]

theorem decimal_of_digits : ∀ (n : Nat) (cs : List Char), cs.length = n → cs ≠ [] →
    cs.all isDigitChar = true → Decimal cs (digitsValue cs) := by
  intro n
  induction n with
  | zero => intro cs h h'; exact absurd (List.length_eq_zero_iff.1 h) h'
  | succ n ih =>
    intro cs h h' ha
    obtain ⟨ds, c, rfl⟩ : ∃ ds c, cs = ds ++ [c] :=
      ⟨cs.dropLast, cs.getLast h', (List.dropLast_concat_getLast h').symm⟩
    simp only [List.all_append, List.all_cons, List.all_nil, Bool.and_true, Bool.and_eq_true] at ha
    obtain ⟨h1, h2⟩ := isDigitChar_iff.1 ha.2
    by_cases e : ds = []
    · subst e
      have := Decimal.one c h1 h2
      simpa [digitsValue, digitValue] using this
    · rw [digitsValue_snoc]
      exact .snoc ds _ c (ih ds (by simpa using h) e ha.1) h1 h2

theorem digits_of_decimal {cs : List Char} {n : Nat} (h : Decimal cs n) :
    cs ≠ [] ∧ cs.all isDigitChar = true ∧ digitsValue cs = n := by
  induction h with
  | one c h1 h2 => simp [digitsValue, digitValue, isDigitChar_iff.2 ⟨h1, h2⟩]
  | snoc cs n c _ h1 h2 ih =>
    refine ⟨by simp, by simp [isDigitChar_iff.2 ⟨h1, h2⟩, ih.2.1] , ?_⟩
    rw [digitsValue_snoc, ih.2.2]

theorem parseInt_iff {s : String} {i : Int} :
    parseInt s = some i ↔ ∃ n, Decimal s.toList n ∧ n < 2 ^ 63 ∧ i = n := by
  unfold parseInt
  constructor
  · intro h
    split at h
    · next c =>
      cases h
      exact ⟨_, decimal_of_digits _ _ rfl c.1 c.2.1, c.2.2, rfl⟩
    · cases h
  · rintro ⟨n, h, h', rfl⟩
    obtain ⟨h1, h2, h3⟩ := digits_of_decimal h
    rw [if_pos ⟨h1, h2, h3 ▸ h'⟩, h3]

theorem parseFloat_eq (s : String) : parseFloat s = floatOf s := rfl

theorem processString_eq (s : String) : processString s = inner s := by
  simp [processString, inner]

theorem post_literal (ts : Input) :
    Post literal ts fun e rest => ∃ t, Lit t e ∧ Took [t] ts rest := by
  apply post_bind
  apply post_next_kind
  · exact post_fail
  · rintro t rest rfl
    split
    · next k =>
      split
      · next i e =>
        obtain ⟨n, h1, h2, rfl⟩ := parseInt_iff.1 e
        exact post_pure ⟨t, .int t n k h1 h2, rfl⟩
      · exact post_fail
    · next k => exact post_pure ⟨t, .float t k, rfl⟩
    · next k => rw [processString_eq]; exact post_pure ⟨t, .str t k, rfl⟩
    · next k => exact post_pure ⟨t, .false_ t k, rfl⟩
    · next k => exact post_pure ⟨t, .true_ t k, rfl⟩
    · next k => exact post_pure ⟨t, .null t k, rfl⟩
    · exact post_fail

theorem post_importModule (ts : Input) :
    Post importModule ts fun m rest => ∃ us, ImportModule m us ∧ Took us ts rest := by
  apply post_bind
  apply post_peek
  intro t _
  by_cases e : t.kind = .star
  · rw [if_pos e]
    apply post_bind
    refine post_consume (by decide) ?_
    rintro s ts rfl hs
    apply post_bind
    refine post_consume (by decide) ?_
    rintro a ts rfl ha
    apply post_bind
    refine post_consumeIdent ?_
    rintro n ts rfl hn
    apply post_bind
    apply post_peek
    intro t _
    by_cases e : t.kind = .comma
    · rw [if_pos e]
      apply post_bind
      refine post_consume (by decide) ?_
      rintro c ts rfl hc
      exact post_pure ⟨_, .comma s a n c hs ha hn hc, rfl⟩
    · rw [if_neg e]
      exact post_pure ⟨_, .some s a n hs ha hn, rfl⟩
  · rw [if_neg e]
    exact post_pure ⟨_, .none, rfl⟩

theorem post_importItems (n : Nat) (ts : Input) :
    Post (importItems n) ts fun m rest => ∃ us, ImportItems m us ∧ Took us ts rest := by
  apply post_bind
  apply post_peek
  intro t _
  by_cases e : t.kind = .leftCurly
  · rw [if_pos e]
    refine post_mono (post_fields (by decide) (by decide) _) ?_
    rintro ns rest ⟨o, c, us, ho, hc, hn, h⟩
    exact ⟨_, .some o c ns us ho hc hn, h⟩
  · rw [if_neg e]
    exact post_pure ⟨_, .none, rfl⟩

theorem post_importDecl (n : Nat) (ts : Input) :
    Post (importDecl n) ts fun e rest => ∃ us, Writes (.stmt e any) us ∧ Took us ts rest := by
  apply post_bind
  refine post_consume (by decide) ?_
  rintro t ts rfl ht
  apply post_bind
  refine post_mono (post_importModule _) ?_
  rintro m rest ⟨ms, h1, h2⟩
  apply post_bind
  refine post_mono (post_importItems _ _) ?_
  rintro ns rest' ⟨is, h3, h4⟩
  split
  · exact post_fail
  · next c =>
    apply post_bind
    refine post_consume (by decide) ?_
    rintro o ts rfl ho
    apply post_bind
    refine post_consumeString ?_
    rintro p ts rfl hp
    rw [processString_eq]
    exact post_pure ⟨_, .import t o p m ns ms is ht ho hp h1 h3 c,
      by took⟩

/-! ## Expressions and statements -/

/-- The consumed tokens write `e` with operators of level at least `l`, and the next token does not continue
it at that level. -/
def ExprAt (l : Nat) (ts : Input) (e : Expr) (rest : Input) : Prop :=
  ∃ us m f, Took us ts rest ∧ Writes (.expr e m f) us ∧ l ≤ m ∧ Next (fun k => f k ∧ binds k < l) rest

/-- The consumed tokens write a block. -/
def BlockAt (ts : Input) (e : Expr) (rest : Input) : Prop := ∃ us, Took us ts rest ∧ Writes (.block e) us

/-- The consumed tokens write statements, and the sequence ends there. -/
def SeqAt (ts : Input) (es : List Expr) (rest : Input) : Prop :=
  ∃ us f t, Took us ts rest ∧ Writes (.seq es f) us ∧ Head t rest ∧ endsSequence t.kind = true ∧ f t.kind

/-- The recursive calls build what the grammar says. -/
structure Sound (r : Rec) : Prop where
  prec : ∀ p ts, 1 ≤ p.rank → Post (r.prec p) ts (ExprAt p.rank ts)
  sequence : ∀ ts, Post r.sequence ts fun e rest => ∃ es, e = blockOf es ∧ SeqAt ts es rest
  ifExpr : ∀ ts, Post r.ifExpr ts fun e rest =>
    ∃ us f, Took us ts rest ∧ Writes (.ifExpr e f) us ∧ Next f rest

theorem Sound.expr {r : Rec} (hr : Sound r) (ts : Input) : Post r.expr ts (ExprAt 1 ts) :=
  hr.prec .assignment ts (by decide)

variable {r : Rec} {n : Nat}

theorem post_block (hr : Sound r) (ts : Input) : Post (block r) ts (BlockAt ts) := by
  apply post_bind
  refine post_consume (by decide) ?_
  rintro o ts rfl ho
  apply post_bind
  refine post_mono (hr.sequence _) ?_
  rintro e mid ⟨es, rfl, us, f, t, h1, h2, h3, h4, h5⟩
  apply post_bind
  refine post_consume (by decide) ?_
  rintro c rest rfl hc
  cases h3
  exact post_pure ⟨_, by took, .braces o t es f us ho hc h2 (hc ▸ h5)⟩

theorem post_ifExpression (hr : Sound r) (ts : Input) :
    Post (ifExpression r) ts fun e rest => ∃ us f, Took us ts rest ∧ Writes (.ifExpr e f) us ∧ Next f rest := by
  apply post_bind
  refine post_consume (by decide) ?_
  rintro t ts rfl ht
  apply post_bind
  refine post_mono (hr.expr _) ?_
  rintro c mid ⟨us, l, f, h1, h2, -, h4⟩
  apply post_bind
  refine post_mono (post_block hr _) ?_
  rintro b mid' ⟨vs, h5, h6⟩
  have hf : f .leftCurly := by
    cases h6 with
    | braces o c es g ws ho hc _ _ =>
      unfold Took at h5
      subst h5
      exact (h4.get ho (not_assign (by decide))).1
  apply post_bind
  refine post_mono (Q := fun e rest => ∃ ws g, Took ws (.ok t :: ts) rest ∧ Writes (.ifExpr (.ifExpr c b e) g) ws ∧
    Next g rest) ?_ ?_
  · apply post_bind
    refine post_peek ?_
    intro u hu
    by_cases e : u.kind = .else_
    · rw [if_pos e]
      apply post_bind
      refine post_consume (by decide) ?_
      rintro e ts rfl he
      apply post_bind
      refine post_peek ?_
      intro v hv
      by_cases k : v.kind = .if_
      · rw [if_pos k]
        apply post_map
        refine post_mono (hr.ifExpr _) ?_
        rintro d rest ⟨ws, g, h7, h8, h9⟩
        exact ⟨_, g, by took, .ifElseIf t e c b d l f g us vs ws ht he h2 hf h6 h8, h9⟩
      · rw [if_neg k]
        by_cases k' : v.kind = .leftCurly
        · rw [if_pos k']
          apply post_map
          refine post_mono (post_block hr _) ?_
          rintro d rest ⟨ws, h7, h8⟩
          exact ⟨_, any, by took, .ifElse t e c b d l f us vs ws ht he h2 hf h6 h8, Next.any _⟩
        · rw [if_neg k']
          refine post_pure ⟨_, _, by took, .ifLooseElse t e c b l f us vs ht he h2 hf h6, ?_⟩
          intro v' hv'
          rw [hv'.eq hv]
          exact .inr ⟨k, k'⟩
    · rw [if_neg e]
      refine post_pure ⟨_, _, by took, .ifNoElse t c b l f us vs ht h2 hf h6, ?_⟩
      intro v' hv'
      rw [hv'.eq hu]
      exact .inr e
  · rintro e rest ⟨ws, g, h7, h8, h9⟩
    exact post_pure ⟨ws, g, h7, h8, h9⟩

theorem Next.block {f : Kind → Prop} {ts rest : Input} {us : List Token} {b : Expr} (h : Next f ts)
    (h5 : Took us ts rest) (h6 : Writes (.block b) us) : f .leftCurly := by
  cases h6 with
  | braces o c es g ws ho hc _ _ =>
    unfold Took at h5
    subst h5
    exact h.get ho (not_assign (by decide))

/-- A statement with the tokens that write it. -/
def StmtAt (ts : Input) (e : Expr) (rest : Input) : Prop :=
  ∃ us f, Took us ts rest ∧ Writes (.stmt e f) us ∧ Next f rest

theorem post_loop (hr : Sound r) (ts : Input) : Post (loopStatement r) ts (StmtAt ts) := by
  apply post_bind
  refine post_consume (by decide) ?_
  rintro t ts rfl ht
  apply post_bind
  refine post_mono (post_block hr _) ?_
  rintro b rest ⟨us, h1, h2⟩
  exact post_pure ⟨_, any, by took, .loop t b us ht h2, Next.any _⟩

theorem post_while (hr : Sound r) (ts : Input) : Post (whileStatement r) ts (StmtAt ts) := by
  apply post_bind
  refine post_consume (by decide) ?_
  rintro t ts rfl ht
  apply post_bind
  refine post_mono (hr.expr _) ?_
  rintro c mid ⟨us, l, f, h1, h2, -, h4⟩
  apply post_bind
  refine post_mono (post_block hr _) ?_
  rintro b rest ⟨vs, h5, h6⟩
  exact post_pure ⟨_, any, by took, .whileLoop t c b l f us vs ht h2 (h4.block h5 h6).1 h6, Next.any _⟩

theorem post_for (hr : Sound r) (ts : Input) : Post (forStatement r) ts (StmtAt ts) := by
  apply post_bind
  refine post_consume (by decide) ?_
  rintro t ts rfl ht
  apply post_bind
  refine post_consumeIdent ?_
  rintro n ts rfl hn
  apply post_bind
  refine post_consume (by decide) ?_
  rintro i ts rfl hi
  apply post_bind
  refine post_mono (hr.expr _) ?_
  rintro c mid ⟨us, l, f, h1, h2, -, h4⟩
  apply post_bind
  refine post_mono (post_block hr _) ?_
  rintro b rest ⟨vs, h5, h6⟩
  exact post_pure ⟨_, any, by took, .forLoop t n i c b l f us vs ht hn hi h2 (h4.block h5 h6).1 h6, Next.any _⟩

theorem Next.stop {f : Kind → Prop} {rest : Input} (h : Next (fun k => f k ∧ binds k < 1) rest) :
    Next (fun k => f k ∧ binds k = 0) rest :=
  h.mono fun _ ⟨h1, h2⟩ => ⟨h1, Nat.lt_one_iff.1 h2⟩

theorem post_controlFlow (hr : Sound r) (ts : Input) : Post (controlFlow r) ts (StmtAt ts) := by
  apply post_bind
  apply post_next_kind
  · exact post_fail
  · rintro t rest rfl
    split
    · next k => exact post_pure ⟨[t], any, rfl, .break_ t k, Next.any _⟩
    · next k => exact post_pure ⟨[t], any, rfl, .continue_ t k, Next.any _⟩
    · next k =>
      apply post_bind
      refine post_peek ?_
      intro u hu
      by_cases e : u.kind ≠ .rightCurly
      · rw [if_pos e]
        apply post_bind
        refine post_mono (hr.expr _) ?_
        rintro e rest ⟨us, l, f, h1, h2, -, h4⟩
        exact post_pure ⟨_, _, h1.cons, .return_ t e l f us k h2, h4.stop⟩
      · rw [if_neg e]
        refine post_pure ⟨[t], _, rfl, .returnUnit t k, ?_⟩
        intro v hv
        rw [hv.eq hu]
        exact .inr (Decidable.not_not.1 e)
    · exact post_fail

theorem assignOp_some {k : Kind} {op : AssignOp} : assignOp k = some op ↔ k = assignKind op := by
  cases k <;> cases op <;> simp [assignOp, assignKind]

/-- The outcomes of `parseAssignment`. -/
theorem post_assignment (hr : Sound r) (lhs : Expr) (c : Bool) (ts : Input) :
    Post (parseAssignment r lhs c) ts fun e rest => (e = lhs ∧ rest = ts) ∨
      ∃ (op : AssignOp) (t : Token) (b : Expr) (m : Nat) (g : Kind → Prop) (vs : List Token), c = true ∧ t.kind = assignKind op ∧ Writes (.expr b m g) vs ∧
        Took (t :: vs) ts rest ∧ Next (fun k => g k ∧ binds k = 0) rest ∧ e = .assign op lhs b := by
  apply post_bind
  refine post_peek ?_
  intro t ht
  split
  · next op e =>
    obtain ⟨ts, rfl⟩ := ht.cons (by intro k; rw [k] at e; cases e)
    apply post_bind
    refine post_next ?_
    intro u hu
    cases hu
    apply post_bind
    refine post_mono (hr.expr _) ?_
    rintro b rest ⟨us, l, f, h1, h2, -, h4⟩
    exact post_pure (.inr ⟨op, t, b, l, f, us, rfl, assignOp_some.1 e, h2, h1.cons, h4.stop, rfl⟩)
  · exact post_pure (.inl ⟨rfl, rfl⟩)

/-- An expression with the tokens that write it, possibly an assignment. -/
def PrefixAt (c : Bool) (ts : Input) (e : Expr) (rest : Input) : Prop :=
  ∃ us m f, Took us ts rest ∧ Writes (.expr e m f) us ∧ (m = closedLevel ∨ c = true ∧ m = 1) ∧ Next f rest

theorem post_variable (hr : Sound r) (c : Bool) (ts : Input) :
    Post (variable_ r c) ts (PrefixAt c ts) := by
  apply post_bind
  apply post_next_kind
  · exact post_fail
  · rintro n ts rfl
    by_cases e : n.kind = .identifier
    · rw [if_pos e]
      refine post_mono (post_assignment hr _ _ _) ?_
      rintro _ rest (⟨rfl, rfl⟩ | ⟨op, t, b, m, g, vs, hc, ht, h1, h2, h3, rfl⟩)
      · exact ⟨[n], _, any, rfl, .ident n e, .inl rfl, Next.any _⟩
      · exact ⟨_, _, _, by took, .assignIdent op n t b m g vs e ht h1, .inr ⟨hc, rfl⟩, h3⟩
    · rw [if_neg e]; exact post_fail

theorem post_varKind (ts : Input) :
    Post (varKind n) ts fun k rest => ∃ us, Took us ts rest ∧ Pattern k us := by
  apply post_bind
  refine post_peek ?_
  intro t ht
  split
  · next e =>
    obtain ⟨ts, rfl⟩ := ht.cons (e ▸ nofun)
    apply post_bind
    refine post_next ?_
    intro u hu
    cases hu
    exact post_pure ⟨[t], rfl, .name t e⟩
  · apply post_map
    refine post_mono (post_fields (by decide) (by decide) _) ?_
    rintro ns rest ⟨o, c, us, ho, hc, hn, h⟩
    exact ⟨_, h, .names o c ns us ho hc hn⟩
  · exact post_fail

theorem post_optMut (ts : Input) :
    Post optMut ts fun m rest => ∃ us, Took us ts rest ∧ Mut m us := by
  apply post_bind
  refine post_peek ?_
  intro t _
  by_cases e : t.kind = .mut
  · rw [if_pos e]
    apply post_bind
    refine post_consume (by decide) ?_
    rintro u ts rfl hu
    exact post_pure ⟨[u], rfl, .yes u hu⟩
  · rw [if_neg e]
    exact post_pure ⟨[], rfl, .no⟩

/-- A declaration with the tokens that write it. -/
def DeclAt (k : Kind) (ts : Input) (e : Expr) (rest : Input) : Prop :=
  ∃ us f, Took us ts rest ∧ Writes (.decl k e f) us ∧ Next f rest

theorem post_varDecl (hr : Sound r) (ts : Input) : Post (varDecl n r) ts (DeclAt .let_ ts) := by
  apply post_bind
  refine post_consume (by decide) ?_
  rintro t ts rfl ht
  apply post_bind
  refine post_mono (post_optMut _) ?_
  rintro m mid ⟨ms, h1, hm⟩
  apply post_bind
  refine post_mono (post_varKind _) ?_
  rintro k mid' ⟨ps, h2, hp⟩
  apply post_bind
  refine post_consume (by decide) ?_
  rintro a rest rfl ha
  apply post_bind
  refine post_mono (hr.expr _) ?_
  rintro e rest' ⟨us, l, f, h3, h4, -, h5⟩
  exact post_pure ⟨_, _, by took, .letDecl t a m k e l f ms ps us ht ha hm hp h4, h5.stop⟩

theorem post_anonymousFn (hr : Sound r) (c : Bool) (ts : Input) :
    Post (anonymousFn n r) ts (PrefixAt c ts) := by
  apply post_bind
  refine post_mono (post_args (by decide) (by decide) _) ?_
  rintro ps mid ⟨o, c, us, ho, hc, hp, h1⟩
  by_cases e : ps.length > 255
  · rw [if_pos e]; exact post_fail
  · rw [if_neg e]
    apply post_bind
    refine post_mono (hr.expr _) ?_
    rintro b rest ⟨vs, l, f, h3, h4, -, h5⟩
    exact post_pure ⟨_, _, _, by took, .anonFn o c ps us b l f vs ho hc hp (by omega) h4, .inl rfl, h5.stop⟩

theorem post_fnDecl (hr : Sound r) (ts : Input) :
    Post (fnDecl n r) ts fun e rest => ∃ us, Took us ts rest ∧ Writes (.decl .function e any) us := by
  apply post_bind
  refine post_consume (by decide) ?_
  rintro t ts rfl ht
  apply post_bind
  refine post_consumeIdent ?_
  rintro n ts rfl hn
  apply post_bind
  refine post_mono (post_args (by decide) (by decide) _) ?_
  rintro ps mid ⟨o, c, us, ho, hc, hp, h1⟩
  by_cases e : ps.length > 255
  · rw [if_pos e]; exact post_fail
  · rw [if_neg e]
    apply post_bind
    refine post_mono (post_return _) ?_
    rintro ret mid' ⟨rs, h2, h3⟩
    apply post_bind
    refine post_mono (post_block hr _) ?_
    rintro b rest ⟨vs, h4, h5⟩
    exact post_pure ⟨_, by took, .fnDecl t n o c ps ret b us rs vs ht hn ho hc hp (by omega) h2 h5⟩

theorem overloadedOp_some {k : Kind} {op : OverOp} : overloadedOp k = some op ↔ k = overKind op := by
  cases k <;> cases op <;> simp [overloadedOp, overKind]

theorem post_opDecl (hr : Sound r) (ts : Input) :
    Post (opDecl n r) ts fun e rest => ∃ us, Took us ts rest ∧ Writes (.decl .operator e any) us := by
  apply post_bind
  refine post_consume (by decide) ?_
  rintro t ts rfl ht
  apply post_bind
  apply post_next_kind
  · exact post_fail
  · rintro n ts rfl
    split
    · exact post_fail
    · next op e =>
      apply post_bind
      refine post_mono (post_args (by decide) (by decide) _) ?_
      rintro ps mid ⟨o, c, us, ho, hc, hp, h1⟩
      apply post_bind
      refine post_mono (post_return _) ?_
      rintro ret mid' ⟨rs, h2, h3⟩
      apply post_bind
      refine post_mono (post_block hr _) ?_
      rintro b rest ⟨vs, h4, h5⟩
      exact post_pure ⟨_, by took,
        .opDecl op t n o c ps ret b us rs vs ht (overloadedOp_some.1 e) ho hc hp h2 h5⟩

theorem post_classLoop (hr : Sound r) : ∀ (k : Nat) (ts : Input),
    Post (classLoop n r k) ts fun es rest => ∃ us, Took us ts rest ∧ Writes (.members es) us := by
  intro k
  induction k with
  | zero => exact fun _ => post_fuel
  | succ k ih =>
    intro ts
    apply post_bind
    refine post_peek ?_
    intro t _
    split
    · exact post_pure ⟨[], rfl, .membersNil⟩
    · apply post_bind
      refine post_mono (post_fnDecl hr _) ?_
      rintro e mid ⟨us, h1, h2⟩
      apply post_bind
      refine post_mono (ih _) ?_
      rintro es rest ⟨vs, h3, h4⟩
      exact post_pure ⟨_, h1.append h3, .membersCons _ e es us vs (.inl rfl) h2 h4⟩
    · apply post_bind
      refine post_mono (post_opDecl hr _) ?_
      rintro e mid ⟨us, h1, h2⟩
      apply post_bind
      refine post_mono (ih _) ?_
      rintro es rest ⟨vs, h3, h4⟩
      exact post_pure ⟨_, h1.append h3, .membersCons _ e es us vs (.inr rfl) h2 h4⟩
    · exact post_fail

theorem post_classDecl (hr : Sound r) (ts : Input) :
    Post (classDecl n r) ts fun e rest => ∃ us, Took us ts rest ∧ Writes (.decl .class_ e any) us := by
  apply post_bind
  refine post_consume (by decide) ?_
  rintro t ts rfl ht
  apply post_bind
  refine post_consumeIdent ?_
  rintro n ts rfl hn
  apply post_bind
  apply post_bind
  refine post_peek ?_
  intro u _
  by_cases e : u.kind = .colon
  · rw [if_pos e]
    apply post_bind
    refine post_consume (by decide) ?_
    rintro d ts rfl hd
    apply post_map
    refine post_mono (hr.expr _) ?_
    rintro b mid ⟨vs, l, f, h3, h4, -, h5⟩
    apply post_bind
    refine post_consume (by decide) ?_
    rintro o mid rfl ho
    apply post_bind
    refine post_mono (post_classLoop hr _ _) ?_
    rintro es mid' ⟨us, h6, h7⟩
    apply post_bind
    refine post_consume (by decide) ?_
    rintro c rest rfl hc
    exact post_pure ⟨_, by took, .subclassDecl t n d o c b l f es vs us ht hn hd ho hc h4
      (h5.get ho (not_assign (by decide))).1 h7⟩
  · rw [if_neg e]
    apply post_pure
    apply post_bind
    refine post_consume (by decide) ?_
    rintro o ts rfl ho
    apply post_bind
    refine post_mono (post_classLoop hr _ _) ?_
    rintro es mid' ⟨us, h6, h7⟩
    apply post_bind
    refine post_consume (by decide) ?_
    rintro c rest rfl hc
    exact post_pure ⟨_, by took, .classDecl t n o c es us ht hn ho hc h7⟩

/-- A statement, or an `export` of the name that comes next. -/
def StatementAt (ts : Input) (e : Expr) (rest : Input) : Prop :=
  StmtAt ts e rest ∨ ∃ (t n : Token) (rest' : Input), t.kind = .export ∧ n.kind = .identifier ∧ ts = .ok t :: .ok n :: rest' ∧
    rest = .ok n :: rest' ∧ e = .exportDecl (.ident n.text)

theorem post_exportDecl (hr : Sound r) (ts : Input) : Post (exportDecl n r) ts (StatementAt ts) := by
  apply post_bind
  refine post_consume (by decide) ?_
  rintro t ts rfl ht
  apply post_bind
  apply post_bind
  refine post_peek ?_
  intro u hu
  split
  · refine post_mono (post_varDecl hr _) ?_
    rintro e rest ⟨us, f, h1, h2, h3⟩
    exact post_pure (.inl ⟨_, f, h1.cons, .export t _ e f us ht (.inl rfl) h2, h3⟩)
  · refine post_mono (post_fnDecl hr _) ?_
    rintro e rest ⟨us, h1, h2⟩
    exact post_pure (.inl ⟨_, any, h1.cons, .export t _ e any us ht (.inr (.inl rfl)) h2, Next.any _⟩)
  · refine post_mono (post_classDecl hr _) ?_
    rintro e rest ⟨us, h1, h2⟩
    exact post_pure (.inl ⟨_, any, h1.cons, .export t _ e any us ht (.inr (.inr rfl)) h2, Next.any _⟩)
  · next e =>
    obtain ⟨ts, rfl⟩ := hu.cons (e ▸ nofun)
    apply post_pure
    exact post_pure (.inr ⟨t, u, ts, ht, e, rfl, rfl, rfl⟩)
  · exact post_fail

theorem post_statement (hr : Sound r) (ts : Input) : Post (statement n r) ts (StatementAt ts) := by
  apply post_bind
  refine post_peek ?_
  intro t _
  split
  · exact post_mono (post_loop hr _) fun _ _ h => .inl h
  · exact post_mono (post_while hr _) fun _ _ h => .inl h
  · exact post_mono (post_for hr _) fun _ _ h => .inl h
  · exact post_mono (post_varDecl hr _) fun _ _ ⟨us, f, h1, h2, h3⟩ => .inl ⟨us, f, h1, .declStmt _ _ _ _ h2, h3⟩
  · exact post_mono (post_fnDecl hr _) fun _ _ ⟨us, h1, h2⟩ =>
      .inl ⟨us, any, h1, .declStmt _ _ _ _ h2, Next.any _⟩
  · exact post_mono (post_opDecl hr _) fun _ _ ⟨us, h1, h2⟩ =>
      .inl ⟨us, any, h1, .declStmt _ _ _ _ h2, Next.any _⟩
  · exact post_mono (post_classDecl hr _) fun _ _ ⟨us, h1, h2⟩ =>
      .inl ⟨us, any, h1, .declStmt _ _ _ _ h2, Next.any _⟩
  · exact post_mono (post_importDecl _ _) fun _ _ ⟨us, h1, h2⟩ => .inl ⟨us, any, h2, h1, Next.any _⟩
  · exact post_exportDecl hr _
  · exact post_mono (post_controlFlow hr _) fun _ _ h => .inl h
  · exact post_mono (post_controlFlow hr _) fun _ _ h => .inl h
  · exact post_mono (post_controlFlow hr _) fun _ _ h => .inl h
  · refine post_mono (hr.expr _) ?_
    rintro e rest ⟨us, l, f, h1, h2, -, h3⟩
    exact .inl ⟨us, _, h1, .exprStmt e l f us h2, h3.stop⟩

/-- The kinds of token an expression starts with. -/
def exprStarts : List Kind :=
  [.integer, .float, .string, .true_, .false_, .null, .identifier, .leftParen, .if_, .leftCurly, .leftSquare,
    .object, .super, .pipe, .minus, .not]

/-- The kinds of token a statement starts with. -/
def stmtStarts : List Kind :=
  exprStarts ++ [.let_, .function, .operator, .class_, .export, .import_, .loop, .while_, .for_, .break_,
    .continue_, .return_]

/-- What an item starts with. -/
def First : Item → List Token → Prop
  | .expr _ _ _, us => ∃ t vs, us = t :: vs ∧ t.kind ∈ exprStarts
  | .ifExpr _ _, us => ∃ t vs, us = t :: vs ∧ t.kind = .if_
  | .block _, us => ∃ t vs, us = t :: vs ∧ t.kind = .leftCurly
  | .items _ es, us => (es = [] ∧ us = []) ∨ ∃ t vs, us = t :: vs ∧ t.kind ∈ exprStarts
  | .fields fs, us => (fs = [] ∧ us = []) ∨ ∃ t vs, us = t :: vs ∧ t.kind ∈ [Kind.string, .integer, .identifier]
  | .decl k _ _, us => ∃ t vs, us = t :: vs ∧ t.kind = k ∧ k ∈ [Kind.let_, .function, .operator, .class_]
  | .members es, us => (es = [] ∧ us = []) ∨ ∃ t vs, us = t :: vs ∧ (t.kind = .function ∨ t.kind = .operator)
  | .stmt _ _, us => ∃ t vs, us = t :: vs ∧ t.kind ∈ stmtStarts
  | .seq es _, us => (es = [] ∧ us = []) ∨ ∃ t vs, us = t :: vs ∧ t.kind ∈ stmtStarts

theorem first_append {us vs : List Token} {Q : Token → Prop} (h : ∃ t ws, us = t :: ws ∧ Q t) :
    ∃ t ws, us ++ vs = t :: ws ∧ Q t := by
  obtain ⟨t, ws, rfl, h⟩ := h
  exact ⟨t, ws ++ vs, rfl, h⟩

theorem first {i : Item} {us : List Token} (h : Writes i us) : First i us := by
  induction h with
  | lit t e h => exact ⟨t, [], rfl, by cases h <;> simp_all [exprStarts]⟩
  | ident n h => exact ⟨n, [], rfl, by simp [h, exprStarts]⟩
  | unit o c h => exact ⟨o, _, rfl, by simp [h, exprStarts]⟩
  | group o c e l f us h => exact ⟨o, _, rfl, by simp [h, exprStarts]⟩
  | ifExpr e f us _ ih => obtain ⟨t, vs, rfl, h⟩ := ih; exact ⟨t, _, rfl, by simp [h, exprStarts]⟩
  | block e us _ ih => obtain ⟨t, vs, rfl, h⟩ := ih; exact ⟨t, _, rfl, by simp [h, exprStarts]⟩
  | list o c es us h => exact ⟨o, _, rfl, by simp [h, exprStarts]⟩
  | object t o c fs us h => exact ⟨t, _, rfl, by simp [h, exprStarts]⟩
  | superField t d n h => exact ⟨t, _, rfl, by simp [h, exprStarts]⟩
  | superClassField t o m c d n h => exact ⟨t, _, rfl, by simp [h, exprStarts]⟩
  | superCall t o c es us h => exact ⟨t, _, rfl, by simp [h, exprStarts]⟩
  | anonFn o c ps us e l f vs h => exact ⟨o, _, rfl, by simp [h, exprStarts]⟩
  | unary op t e l f us h => exact ⟨t, _, rfl, by cases op <;> simp [h, exprStarts, unaryKind]⟩
  | binary op t ts a b l m f g us vs _ _ _ _ _ _ ih _ =>
    show ∃ t ws, _ ∧ _
    rw [List.append_assoc]; exact first_append ih
  | isType t n a l f us _ _ _ _ ih => exact first_append ih
  | isNullable t n q a l f us _ _ _ _ _ ih => exact first_append ih
  | nullProp t a l f us _ _ _ ih => exact first_append ih
  | errProp t a l f us _ _ _ ih => exact first_append ih
  | field t n a l f us _ _ _ _ ih => exact first_append ih
  | index o c a b l m f g us vs _ _ _ _ _ _ ih _ =>
    show ∃ t ws, _ ∧ _
    rw [List.append_assoc]; exact first_append ih
  | call o c a l f es us vs _ _ _ _ _ ih _ =>
    show ∃ t ws, _ ∧ _
    rw [List.append_assoc]; exact first_append ih
  | callBackslash t a l f us _ _ _ ih => exact first_append ih
  | orElse t n a b l f us vs _ _ _ _ _ ih _ => exact first_append ih
  | assignIdent op n t b m g vs h => exact ⟨n, _, rfl, by simp [h, exprStarts]⟩
  | assignField op d n t a b l m f g us vs _ _ _ _ _ _ ih _ => exact first_append ih
  | assignIndex op o c t a i b l j m f h g us is vs _ _ _ _ _ _ _ _ ih _ _ =>
    show ∃ t ws, _ ∧ _
    rw [List.append_assoc]; exact first_append ih
  | ifNoElse t c b l f us vs h => exact ⟨t, _, rfl, h⟩
  | ifElse t e c b d l f us vs ws h => exact ⟨t, _, rfl, h⟩
  | ifElseIf t e c b d l f g us vs ws h => exact ⟨t, _, rfl, h⟩
  | ifLooseElse t e c b l f us vs h => exact ⟨t, _, rfl, h⟩
  | braces o c es f us h => exact ⟨o, _, rfl, h⟩
  | itemsNil close => exact .inl ⟨rfl, rfl⟩
  | itemsLast close e l f us _ _ ih => exact .inr ih
  | itemsCons close c e l f es us vs _ _ _ _ ih _ => exact .inr (first_append ih)
  | fieldsNil => exact .inl ⟨rfl, rfl⟩
  | fieldsLast k d e l f us h => exact .inr ⟨k, _, rfl, h⟩
  | fieldsCons k d c e l f fs us vs h => exact .inr ⟨k, _, rfl, h⟩
  | letDecl t a m k e l f ms ps us h => exact ⟨t, _, rfl, h, by simp⟩
  | fnDecl t n o c ps ret b us rs vs h => exact ⟨t, _, rfl, h, by simp⟩
  | opDecl op t n o c ps ret b us rs vs h => exact ⟨t, _, rfl, h, by simp⟩
  | classDecl t n o c es us h => exact ⟨t, _, rfl, h, by simp⟩
  | subclassDecl t n d o c b l f es vs us h => exact ⟨t, _, rfl, h, by simp⟩
  | membersNil => exact .inl ⟨rfl, rfl⟩
  | membersCons k e es us vs hk _ _ ih _ =>
    obtain ⟨t, ws, rfl, h, _⟩ := ih
    exact .inr ⟨t, ws ++ vs, rfl, h ▸ hk⟩
  | exprStmt e l f us _ ih =>
    obtain ⟨t, ws, rfl, h⟩ := ih
    exact ⟨t, ws, rfl, List.mem_append_left _ h⟩
  | declStmt k e f us _ ih =>
    obtain ⟨t, ws, rfl, rfl, h⟩ := ih
    refine ⟨t, ws, rfl, List.mem_append_right _ ?_⟩
    revert h
    cases t.kind <;> simp
  | «export» t k e f us h => exact ⟨t, _, rfl, by simp [h, stmtStarts]⟩
  | «import» t o p m ns ms is h => exact ⟨t, _, rfl, by simp [h, stmtStarts]⟩
  | loop t b us h => exact ⟨t, _, rfl, by simp [h, stmtStarts]⟩
  | whileLoop t c b l f us vs h => exact ⟨t, _, rfl, by simp [h, stmtStarts]⟩
  | forLoop t n i c b l f us vs h => exact ⟨t, _, rfl, by simp [h, stmtStarts]⟩
  | break_ t h => exact ⟨t, _, rfl, by simp [h, stmtStarts]⟩
  | continue_ t h => exact ⟨t, _, rfl, by simp [h, stmtStarts]⟩
  | returnUnit t h => exact ⟨t, _, rfl, by simp [h, stmtStarts]⟩
  | return_ t e l f us h => exact ⟨t, _, rfl, by simp [h, stmtStarts]⟩
  | seqNil => exact .inl ⟨rfl, rfl⟩
  | seqLast e f us _ ih => exact .inr ih
  | seqCons e f es g us t vs _ _ _ ih _ => exact .inr (first_append ih)
  | seqExport t n es g us h => exact .inr ⟨t, _, rfl, by simp [h, stmtStarts]⟩

theorem stmtStart_not_assign {k : Kind} (h : k ∈ stmtStarts) : ¬isAssign k := by
  rintro ⟨op, rfl⟩
  cases op <;> revert h <;> decide

/-- The statements and the value of a sequence. -/
theorem post_sequenceLoop (hr : Sound r) : ∀ (k : Nat) (ts : Input),
    Post (sequenceLoop n r k) ts fun x rest => ∃ es, x = (es.dropLast, es.getLast?) ∧ SeqAt ts es rest ∧
      ((∃ t, Head t ts ∧ endsSequence t.kind = false) → es ≠ []) := by
  intro k
  induction k with
  | zero => exact fun _ => post_fuel
  | succ k ih =>
    intro ts
    apply post_bind
    refine post_peek ?_
    intro t ht
    by_cases e : endsSequence t.kind = true
    · rw [if_pos e]
      refine post_pure ⟨[], rfl, ⟨[], any, t, rfl, .seqNil, ht, e, trivial⟩, ?_⟩
      rintro ⟨u, hu, h⟩
      rw [hu.eq ht, e] at h
      cases h
    · rw [if_neg e]
      apply post_bind
      refine post_mono (post_statement hr _) ?_
      intro x mid hs
      apply post_bind
      refine post_peek ?_
      intro u hu
      by_cases e' : endsSequence u.kind = true
      · rw [if_pos e']
        refine post_pure ⟨[x], rfl, ?_, fun _ => by simp⟩
        rcases hs with ⟨us, f, h1, h2, h3⟩ | ⟨t, v, rest, -, hv, -, rfl, -⟩
        · refine ⟨us, f, u, h1, .seqLast x f us h2, hu, e', ?_⟩
          rcases h3 u hu with ⟨op, h⟩ | h
          · rw [← h] at e'
            cases op <;> exact absurd e' (by decide)
          · exact h
        · cases hu
          rw [hv] at e'
          exact absurd e' (by decide)
      · rw [if_neg e']
        apply post_bind
        refine post_mono (ih _) ?_
        rintro ⟨_, _⟩ rest ⟨es, hx, ⟨vs, g, v, h4, h5, h6, h7, h8⟩, h9⟩
        cases hx
        have ne : es ≠ [] := h9 ⟨u, hu, by simpa using e'⟩
        refine post_pure ⟨x :: es, ?_, ?_, fun _ => by simp⟩
        · obtain ⟨y, ys, rfl⟩ : ∃ y ys, es = y :: ys := List.exists_cons_of_ne_nil ne
          simp [List.getLast?_cons_cons]
        · rcases first h5 with ⟨h, -⟩ | ⟨w, ws, rfl, hw⟩
          · exact absurd h ne
          · have eu : u = w := by
              unfold Took at h4
              subst h4
              exact hu
            subst eu
            rcases hs with ⟨us, f, h1, h2, h3⟩ | ⟨t, n, rest', ht', hn, rfl, hr', rfl⟩
            · refine ⟨_, g, v, h1.append h4, .seqCons x f es g us u ws h2 ?_ h5, h6, h7, h8⟩
              exact (h3 u hu).resolve_left (stmtStart_not_assign hw)
            · subst hr'
              cases hu
              exact ⟨_, g, v, h4.cons, .seqExport t u es g ws ht' hn h5, h6, h7, h8⟩

theorem post_sequence (hr : Sound r) (ts : Input) :
    Post (sequence n r) ts fun e rest => ∃ es, e = blockOf es ∧ SeqAt ts es rest := by
  apply post_bind
  refine post_mono (post_sequenceLoop hr _ _) ?_
  rintro x rest ⟨es, rfl, h, -⟩
  exact post_pure ⟨es, rfl, h⟩

theorem post_grouping (hr : Sound r) (c : Bool) (ts : Input) : Post (grouping r) ts (PrefixAt c ts) := by
  apply post_bind
  refine post_consume (by decide) ?_
  rintro o ts rfl ho
  apply post_bind
  refine post_peek ?_
  intro t _
  by_cases e : t.kind = .rightParen
  · rw [if_pos e]
    apply post_bind
    refine post_consume (by decide) ?_
    rintro c ts rfl hc
    exact post_pure ⟨[o, c], _, any, rfl, .unit o c ho hc, .inl rfl, Next.any _⟩
  · rw [if_neg e]
    apply post_bind
    refine post_mono (hr.expr _) ?_
    rintro e mid ⟨us, l, f, h1, h2, -, h4⟩
    apply post_bind
    refine post_consume (by decide) ?_
    rintro c rest rfl hc
    exact post_pure ⟨_, _, any, by took, .group o c e l f us ho hc h2 (h4.get hc (not_assign (by decide))).1,
      .inl rfl, Next.any _⟩

theorem post_itemsLoop (hr : Sound r) (close : Kind) (hc : ¬isAssign close) : ∀ (k : Nat) (ts : Input),
    Post (itemsLoop r close k) ts fun es rest => (∃ us, Took us ts rest ∧ Writes (.items close es) us) ∧
      ((∃ t, Head t ts ∧ t.kind = close) → es = [] ∧ ts = rest) := by
  intro k
  induction k with
  | zero => exact fun _ => post_fuel
  | succ k ih =>
    intro ts
    apply post_bind
    refine post_peek ?_
    intro t ht
    by_cases e : t.kind = close
    · rw [if_pos e]
      exact post_pure ⟨⟨[], rfl, .itemsNil _⟩, fun _ => ⟨rfl, rfl⟩⟩
    · rw [if_neg e]
      apply post_bind
      refine post_mono (hr.expr _) ?_
      rintro a mid ⟨us, l, f, h1, h2, -, h4⟩
      apply post_bind
      refine post_mono (post_separator _ _) ?_
      intro _ mid' h5
      apply post_bind
      refine post_mono (ih _) ?_
      rintro as rest ⟨⟨vs, h6, h7⟩, h8⟩
      refine post_pure ⟨?_, fun ⟨u, hu, hk⟩ => absurd (hu.eq ht ▸ hk) e⟩
      rcases h5 with ⟨c, hc, h5⟩ | ⟨rfl, u, hu, hk⟩
      · unfold Took at h5
        subst h5
        exact ⟨_, h1.append h6.cons, .itemsCons close c a l f as us vs hc h2
          (h4.get hc (not_assign (by decide))).1 h7⟩
      · obtain ⟨e1, e2⟩ := h8 ⟨u, hu, hk⟩
        subst e1 e2
        have := (h4 u hu).resolve_left (hk ▸ hc)
        exact ⟨us, h1, .itemsLast close a l f us h2 (hk ▸ this.1)⟩

theorem post_objectLoop (hr : Sound r) : ∀ (k : Nat) (ts : Input),
    Post (objectLoop r k) ts fun fs rest => (∃ us, Took us ts rest ∧ Writes (.fields fs) us) ∧
      ((∃ t, Head t ts ∧ t.kind = .rightCurly) → fs = [] ∧ ts = rest) := by
  intro k
  induction k with
  | zero => exact fun _ => post_fuel
  | succ k ih =>
    intro ts
    apply post_bind
    refine post_peek ?_
    intro t ht
    by_cases e : t.kind = .rightCurly
    · rw [if_pos e]
      exact post_pure ⟨⟨[], rfl, .fieldsNil⟩, fun _ => ⟨rfl, rfl⟩⟩
    · rw [if_neg e]
      apply post_bind
      refine post_mono (Q := fun s rest => ∃ k : Token, k.kind ∈ [Kind.string, .integer, .identifier] ∧
        s = k.text ∧ Took [k] ts rest) ?_ ?_
      · apply post_bind
        apply post_next_kind
        · exact post_fail
        · rintro k ts rfl
          split
          · next h => exact post_pure ⟨k, by simpa using h, rfl, rfl⟩
          · exact post_fail
      rintro _ mid ⟨key, hkey, rfl, h0⟩
      apply post_bind
      refine post_consume (by decide) ?_
      rintro d mid rfl hd
      apply post_bind
      refine post_mono (hr.expr _) ?_
      rintro a mid' ⟨us, l, f, h1, h2, -, h4⟩
      apply post_bind
      refine post_mono (post_separator _ _) ?_
      intro _ mid'' h5
      apply post_bind
      refine post_mono (ih _) ?_
      rintro fs rest ⟨⟨vs, h6, h7⟩, h8⟩
      refine post_pure ⟨?_, fun ⟨u, hu, hk⟩ => absurd (hu.eq ht ▸ hk) e⟩
      rcases h5 with ⟨c, hc, h5⟩ | ⟨rfl, u, hu, hk⟩
      · unfold Took at h5
        subst h5
        exact ⟨_, (h0.append h1.cons).append h6.cons, .fieldsCons key d c a l f fs us vs hkey hd hc h2
          (h4.get hc (not_assign (by decide))).1 h7⟩
      · obtain ⟨e1, e2⟩ := h8 ⟨u, hu, hk⟩
        subst e1 e2
        have := (h4 u hu).resolve_left (by rw [hk]; exact not_assign (by decide))
        exact ⟨_, h0.append h1.cons, .fieldsLast key d a l f us hkey hd h2 (hk ▸ this.1)⟩

theorem post_object (hr : Sound r) (c : Bool) (ts : Input) : Post (object n r) ts (PrefixAt c ts) := by
  apply post_bind
  refine post_consume (by decide) ?_
  rintro t ts rfl ht
  apply post_bind
  refine post_consume (by decide) ?_
  rintro o ts rfl ho
  apply post_bind
  refine post_mono (post_objectLoop hr _ _) ?_
  rintro fs mid ⟨⟨us, h1, h2⟩, -⟩
  apply post_bind
  refine post_consume (by decide) ?_
  rintro c rest rfl hc
  exact post_pure ⟨_, _, any, by took, .object t o c fs us ht ho hc h2, .inl rfl, Next.any _⟩

/-- An opening token, comma-separated expressions and a closing token. -/
theorem post_items (hr : Sound r) {o c : Kind} (ho : o ≠ .endOfInput) (hc : c ≠ .endOfInput)
    (ha : ¬isAssign c) (f : List Expr → Expr) (ts : Input) :
    Post (do consume o; let es ← itemsLoop r c n; consume c; pure (f es)) ts fun e rest =>
      ∃ (t u : Token) (es : List Expr) (us : List Token), t.kind = o ∧ u.kind = c ∧ e = f es ∧
        Writes (.items c es) us ∧ Took (t :: us ++ [u]) ts rest := by
  apply post_bind
  refine post_consume ho ?_
  rintro t ts rfl ht
  apply post_bind
  refine post_mono (post_itemsLoop hr c ha _ _) ?_
  rintro es mid ⟨⟨us, h1, h2⟩, -⟩
  apply post_bind
  refine post_consume hc ?_
  rintro u rest rfl hu
  exact post_pure ⟨t, u, es, us, ht, hu, rfl, h2, by took⟩

theorem post_list (hr : Sound r) (c : Bool) (ts : Input) : Post (list n r) ts (PrefixAt c ts) := by
  refine post_mono (post_items hr (by decide) (by decide) (not_assign (by decide)) .list _) ?_
  rintro _ rest ⟨o, c, es, us, ho, hc, rfl, h1, h2⟩
  exact ⟨_, _, any, h2, .list o c es us ho hc h1, .inl rfl, Next.any _⟩

theorem post_superAccess (hr : Sound r) (c : Bool) (ts : Input) :
    Post (superAccess n r) ts (PrefixAt c ts) := by
  apply post_bind
  refine post_consume (by decide) ?_
  rintro t ts rfl ht
  have method : Post superMethodAccess ts (PrefixAt c (.ok t :: ts)) := by
    apply post_bind
    apply post_bind
    refine post_peek ?_
    intro u _
    by_cases e : u.kind = .leftSquare
    · rw [if_pos e]
      apply post_bind
      refine post_consume (by decide) ?_
      rintro o ts rfl ho
      apply post_bind
      refine post_consumeIdent ?_
      rintro m ts rfl hm
      apply post_bind
      refine post_consume (by decide) ?_
      rintro c ts rfl hc
      apply post_pure
      apply post_bind
      refine post_consume (by decide) ?_
      rintro d ts rfl hd
      apply post_bind
      refine post_consumeIdent ?_
      rintro n ts rfl hn
      exact post_pure ⟨[t, o, m, c, d, n], _, any, rfl, .superClassField t o m c d n ht ho hm hc hd hn,
        .inl rfl, Next.any _⟩
    · rw [if_neg e]
      apply post_pure
      apply post_bind
      refine post_consume (by decide) ?_
      rintro d ts rfl hd
      apply post_bind
      refine post_consumeIdent ?_
      rintro n ts rfl hn
      exact post_pure ⟨[t, d, n], _, any, rfl, .superField t d n ht hd hn, .inl rfl, Next.any _⟩
  apply post_bind
  refine post_peek ?_
  intro u _
  split
  · exact method
  · exact method
  · refine post_mono (post_items hr (by decide) (by decide) (not_assign (by decide)) .superCall _) ?_
    rintro _ rest ⟨o, c, es, us, ho, hc, rfl, h1, h2⟩
    exact ⟨_, _, any, h2.cons, .superCall t o c es us ht ho hc h1, .inl rfl, Next.any _⟩
  · exact post_fail

theorem post_prefixOperator (hr : Sound r) (c : Bool) (ts : Input) :
    Post (prefixOperator r) ts (PrefixAt c ts) := by
  apply post_bind
  apply post_next_kind
  · apply post_bind
    refine post_mono (hr.prec _ _ (by decide)) ?_
    rintro e rest -
    exact post_panic
  · rintro t ts rfl
    apply post_bind
    refine post_mono (hr.prec _ _ (by decide)) ?_
    rintro e rest ⟨us, l, f, h1, h2, h3, h4⟩
    split
    · next k =>
      exact post_pure ⟨_, _, _, h1.cons, .unary .negate t e l f us k h2 h3, .inl rfl, h4⟩
    · next k =>
      exact post_pure ⟨_, _, _, h1.cons, .unary .not t e l f us k h2 h3, .inl rfl, h4⟩
    · exact post_panic

theorem post_runPrefix (hr : Sound r) (f : PrefixRule) (c : Bool) (ts : Input) :
    Post (runPrefix n r f c) ts (PrefixAt c ts) := by
  cases f with
  | literal =>
    refine post_mono (post_literal _) ?_
    rintro e rest ⟨t, h1, h2⟩
    exact ⟨_, _, any, h2, .lit t e h1, .inl rfl, Next.any _⟩
  | «variable» => exact post_variable hr _ _
  | ifExpression =>
    refine post_mono (post_ifExpression hr _) ?_
    rintro e rest ⟨us, f, h1, h2, h3⟩
    exact ⟨_, _, f, h1, .ifExpr e f us h2, .inl rfl, h3⟩
  | object => exact post_object hr _ _
  | list => exact post_list hr _ _
  | superAccess => exact post_superAccess hr _ _
  | grouping => exact post_grouping hr _ _
  | blockExpression =>
    refine post_mono (post_block hr _) ?_
    rintro e rest ⟨us, h1, h2⟩
    exact ⟨_, _, any, h1, .block e us h2, .inl rfl, Next.any _⟩
  | anonymousFn => exact post_anonymousFn hr _ _
  | prefixOperator => exact post_prefixOperator hr _ _

/-! ## The table -/

theorem binds_infix {k : Kind} {rule : Rule} {f : InfixRule} {q : Precedence} (h : ruleFor k = some rule)
    (h' : rule.infix_ = some (f, q)) : binds k = q.rank := by
  cases k <;> first | (cases h; cases h'; rfl) | (cases h; cases h') | cases h

theorem binds_postfix {k : Kind} {rule : Rule} {f : PostfixRule} {q : Precedence} (h : ruleFor k = some rule)
    (h' : rule.postfix_ = some (f, q)) : binds k = q.rank := by
  cases k <;> first | (cases h; cases h'; rfl) | (cases h; cases h') | cases h

theorem binds_none {k : Kind} {rule : Rule} (h : ruleFor k = some rule) (h' : rule.infix_ = none)
    (h'' : rule.postfix_ = none) : binds k = 0 := by
  cases k <;> first | rfl | (cases h; cases h'; done) | (cases h; cases h''; done) | cases h

theorem binaryOp_iff {k : Kind} {op : BinaryOp} : binaryOp k = some op ↔ k = opKind op := by
  cases k <;> cases op <;> simp [binaryOp, opKind]

theorem increment_rank {q : Precedence} (h : q ≠ .primary) : q.increment.rank = q.rank + 1 := by
  cases q <;> first | rfl | exact absurd rfl h

theorem binds_not_assign {k : Kind} (h : binds k ≠ 0) : ¬isAssign k := by
  rintro ⟨op, rfl⟩
  cases op <;> exact h rfl

/-- The expression `node` written by `us` was extended. -/
def ExtendAt (l : Nat) (us : List Token) (ts : Input) (e : Expr) (rest : Input) : Prop :=
  ∃ vs m f, Took vs ts rest ∧ Writes (.expr e m f) (us ++ vs) ∧ l ≤ m ∧ Next f rest

theorem post_binaryOperator (hr : Sound r) {l m : Nat} {f : Kind → Prop} {a : Expr} {us : List Token}
    (hw : Writes (.expr a m f) us) (hl : l ≤ m) (t : Token) (ts : Input) (ht : Head t ts)
    (hb : l ≤ binds t.kind) (h0 : binds t.kind ≠ 0) (hn : Next f ts) :
    Post (binaryOperator r a) ts (ExtendAt l us ts) := by
  obtain ⟨ts, rfl⟩ := ht.cons (by intro e; rw [e] at h0; exact h0 rfl)
  apply post_bind
  refine post_next ?_
  intro u hu
  cases hu
  split
  · exact post_panic
  · next op e =>
    have e := binaryOp_iff.1 e
    apply post_bind
    refine post_mono (Q := fun _ rest => ∃ ws : List Token, ws.map (·.kind) = opRest op ∧ Took ws ts rest) ?_ ?_
    · unfold secondPipe
      by_cases k : t.kind = .pipe
      · rw [if_pos k]
        refine post_consume (by decide) ?_
        rintro v ts rfl hv
        refine ⟨[v], ?_, rfl⟩
        rw [e] at k
        cases op <;> first | (simp [opRest, hv]; done) | cases k
      · rw [if_neg k]
        refine post_pure ⟨[], ?_, rfl⟩
        rw [e] at k
        cases op <;> first | rfl | exact absurd rfl k
    · rintro _ mid ⟨ws, hws, h1⟩
      apply post_bind
      refine post_ruleOf ?_
      intro rule hrule
      split
      · exact post_panic
      · next g q hq =>
        have hq' := binds_infix hrule hq
        have hp : q ≠ .primary := by
          intro k
          rw [k, e] at hq'
          cases op <;> exact absurd hq' (by decide)
        apply post_bind
        refine post_mono (hr.prec _ _ (by rw [increment_rank hp]; omega)) ?_
        rintro b rest ⟨vs, m', g', h2, h3, h4, h5⟩
        rw [increment_rank hp, ← hq'] at h4 h5
        have hlev : level op = binds t.kind := by rw [e]; rfl
        refine post_pure ⟨t :: ws ++ vs, min m (level op), fun k => g' k ∧ binds k ≤ level op, by took, ?_, ?_, ?_⟩
        · have := Writes.binary op t ws a b m m' f g' us vs e hws hw
            (hn.get e (by rw [← e]; exact binds_not_assign h0)) h3 (by omega)
          simpa using this
        · omega
        · refine h5.mono fun k hk => ⟨hk.1, ?_⟩
          omega

theorem post_errorCoalesce (hr : Sound r) {l m : Nat} {f : Kind → Prop} {a : Expr} {us : List Token}
    (hw : Writes (.expr a m f) us) (hl : l ≤ m) (ts : Input) (hb : l ≤ 3) (hn : Next f ts) :
    Post (errorCoalesce r a) ts (ExtendAt l us ts) := by
  apply post_bind
  refine post_consume (by decide) ?_
  rintro t ts rfl ht
  apply post_bind
  refine post_consumeIdent ?_
  rintro n ts rfl hn'
  apply post_bind
  refine post_mono (post_block hr _) ?_
  rintro b rest ⟨vs, h1, h2⟩
  refine post_pure ⟨t :: n :: vs, _, any, h1.cons.cons, .orElse t n a b m f us vs ht hn' hw
    (hn.get ht (not_assign (by decide))) h2, ?_, Next.any _⟩
  show l ≤ min m 3
  omega

theorem post_isOperator {l m : Nat} {f : Kind → Prop} {a : Expr} {us : List Token}
    (hw : Writes (.expr a m f) us) (hl : l ≤ m) (ts : Input) (hb : l ≤ 7) (hn : Next f ts) :
    Post (isOperator a) ts (ExtendAt l us ts) := by
  apply post_bind
  refine post_mono (post_typeAnnotation (by decide) _) ?_
  rintro ⟨name, nullable⟩ rest ⟨t, n, ht, hn', e, h⟩
  dsimp only at e h
  subst e
  have hf : f .is := by
    rcases h with ⟨-, h, -⟩ | ⟨q, -, -, h⟩ <;>
    · unfold Took at h
      subst h
      exact hn.get ht (not_assign (by decide))
  have hlev : l ≤ min m (binds .is) := by show l ≤ min m 7; omega
  rcases h with ⟨e, h, hq⟩ | ⟨q, hq, e, h⟩
  · subst e
    exact post_pure ⟨[t, n], _, _, h, .isType t n a m f us ht hn' hw hf, hlev, hq⟩
  · subst e
    exact post_pure ⟨[t, n, q], _, any, h, .isNullable t n q a m f us ht hn' hq hw hf, hlev, Next.any _⟩

theorem post_indexAccess (hr : Sound r) {l m : Nat} {f : Kind → Prop} {a : Expr} {us : List Token}
    (hw : Writes (.expr a m f) us) (hl : l ≤ m) (c : Bool) (hc : c = true → l ≤ 1) (ts : Input) (hb : l ≤ 12)
    (hn : Next f ts) : Post (indexAccess r a c) ts (ExtendAt l us ts) := by
  apply post_bind
  refine post_consume (by decide) ?_
  rintro o ts rfl ho
  have hf : f .leftSquare := hn.get ho (not_assign (by decide))
  apply post_bind
  refine post_mono (hr.expr _) ?_
  rintro i mid ⟨is, j, h, h1, h2, -, h4⟩
  apply post_bind
  refine post_consume (by decide) ?_
  rintro q mid rfl hq
  have hi : h .rightSquare := (h4.get hq (not_assign (by decide))).1
  refine post_mono (post_assignment hr _ _ _) ?_
  rintro _ rest (⟨rfl, rfl⟩ | ⟨op, t, b, m', g, vs, hc', ht, h5, h6, h7, rfl⟩)
  · refine ⟨o :: is ++ [q], min m 12, any, by took, ?_, ?_, Next.any _⟩
    · have := Writes.index o q a i m j f h us is ho hq hw hf h2 hi
      simpa [binds] using this
    · omega
  · refine ⟨o :: is ++ q :: t :: vs, 1, _, by took, ?_, hc hc', h7⟩
    have := Writes.assignIndex op o q t a i b m j m' f h g us is vs ho hq ht hw hf h2 hi h5
    simpa using this

theorem post_fieldAccess (hr : Sound r) {l m : Nat} {f : Kind → Prop} {a : Expr} {us : List Token}
    (hw : Writes (.expr a m f) us) (hl : l ≤ m) (c : Bool) (hc : c = true → l ≤ 1) (ts : Input) (hb : l ≤ 12)
    (hn : Next f ts) : Post (fieldAccess r a c) ts (ExtendAt l us ts) := by
  apply post_bind
  refine post_consume (by decide) ?_
  rintro d ts rfl hd
  have hf : f .dot := hn.get hd (not_assign (by decide))
  apply post_bind
  refine post_consumeIdent ?_
  rintro n ts rfl hn'
  refine post_mono (post_assignment hr _ _ _) ?_
  rintro _ rest (⟨rfl, rfl⟩ | ⟨op, t, b, m', g, vs, hc', ht, h5, h6, h7, rfl⟩)
  · refine ⟨[d, n], _, any, rfl, .field d n a m f us hd hn' hw hf, ?_, Next.any _⟩
    show l ≤ min m 12
    omega
  · exact ⟨d :: n :: t :: vs, 1, _, by took, .assignField op d n t a b m m' f g us vs hd hn' ht hw hf h5,
      hc hc', h7⟩

theorem post_fnCall (hr : Sound r) {l m : Nat} {f : Kind → Prop} {a : Expr} {us : List Token}
    (hw : Writes (.expr a m f) us) (hl : l ≤ m) (ts : Input) (hb : l ≤ 12) (hn : Next f ts) :
    Post (fnCall n r a) ts (ExtendAt l us ts) := by
  have hlev : l ≤ min m 12 := by omega
  apply post_bind
  refine post_peek ?_
  intro t ht
  by_cases e : t.kind = .backslashArg
  · rw [if_pos e]
    obtain ⟨ts, rfl⟩ := ht.cons (e ▸ nofun)
    apply post_bind
    refine post_next ?_
    intro u hu
    cases hu
    rw [processString_eq]
    exact post_pure ⟨[t], _, any, rfl, .callBackslash t a m f us e hw (hn.get e (not_assign (by decide))),
      hlev, Next.any _⟩
  · rw [if_neg e]
    refine post_mono (post_items hr (by decide) (by decide) (not_assign (by decide)) (.call a) _) ?_
    rintro _ rest ⟨o, c, es, vs, ho, hc, rfl, h1, h2⟩
    have hf : f .leftParen := by
      unfold Took at h2
      subst h2
      exact hn.get ho (not_assign (by decide))
    refine ⟨o :: vs ++ [c], min m 12, any, h2, ?_, hlev, Next.any _⟩
    have := Writes.call o c a m f es us vs ho hc hw hf h1
    simpa [binds] using this

theorem infix_kind {k : Kind} {rule : Rule} {f : InfixRule} {q : Precedence} (h : ruleFor k = some rule)
    (h' : rule.infix_ = some (f, q)) : match f with
      | .indexAccess | .fieldAccess | .fnCall => q.rank = 12
      | .binaryOperator => binds k ≠ 0
      | .errorCoalesce => q.rank = 3
      | .isOperator => q.rank = 7 := by
  cases k <;> first | (cases h; cases h'; first | rfl | decide) | (cases h; cases h') | cases h

theorem post_runInfix (hr : Sound r) {l m : Nat} {f : Kind → Prop} {a : Expr} {us : List Token}
    (hw : Writes (.expr a m f) us) (hl : l ≤ m) (c : Bool) (hc : c = true → l ≤ 1) (t : Token) (ts : Input)
    (ht : Head t ts) (hn : Next f ts) (rule : Rule) (hrule : ruleFor t.kind = some rule) (i : InfixRule)
    (q : Precedence) (hi : rule.infix_ = some (i, q)) (hb : l ≤ q.rank) :
    Post (runInfix n r i a c) ts (ExtendAt l us ts) := by
  have hk := infix_kind hrule hi
  have hbq := binds_infix hrule hi
  cases i with
  | indexAccess => exact post_indexAccess hr hw hl c hc _ (by dsimp only at hk; omega) hn
  | fieldAccess => exact post_fieldAccess hr hw hl c hc _ (by dsimp only at hk; omega) hn
  | fnCall => exact post_fnCall hr hw hl _ (by dsimp only at hk; omega) hn
  | binaryOperator => exact post_binaryOperator hr hw hl t _ ht (by omega) hk hn
  | errorCoalesce => exact post_errorCoalesce hr hw hl _ (by dsimp only at hk; omega) hn
  | isOperator => exact post_isOperator hw hl _ (by dsimp only at hk; omega) hn

theorem post_runPostfix {l m : Nat} {f : Kind → Prop} {a : Expr} {us : List Token}
    (hw : Writes (.expr a m f) us) (hl : l ≤ m) (ts : Input) (hn : Next f ts) (i : PostfixRule) (hb : l ≤ 11) :
    Post (runPostfix i a) ts (ExtendAt l us ts) := by
  have hlev : l ≤ min m 11 := by omega
  cases i with
  | nullPropagate =>
    apply post_bind
    refine post_consume (by decide) ?_
    rintro t ts rfl ht
    exact post_pure ⟨[t], _, any, rfl, .nullProp t a m f us ht hw (hn.get ht (not_assign (by decide))), hlev,
      Next.any _⟩
  | errorPropagate =>
    apply post_bind
    refine post_consume (by decide) ?_
    rintro t ts rfl ht
    exact post_pure ⟨[t], _, any, rfl, .errProp t a m f us ht hw (hn.get ht (not_assign (by decide))), hlev,
      Next.any _⟩

theorem postfix_rank {k : Kind} {rule : Rule} {f : PostfixRule} {q : Precedence} (h : ruleFor k = some rule)
    (h' : rule.postfix_ = some (f, q)) : q.rank = 11 := by
  cases k <;> first | (cases h; cases h'; rfl) | (cases h; cases h') | cases h

theorem post_precLoop (hr : Sound r) (p : Precedence) (hp : 1 ≤ p.rank) : ∀ (k : Nat) (a : Expr) (m : Nat)
    (f : Kind → Prop) (us : List Token) (ts : Input), Writes (.expr a m f) us → p.rank ≤ m → Next f ts →
    Post (precLoop n r p k a) ts fun e rest => ∃ vs m' g, Took vs ts rest ∧ Writes (.expr e m' g) (us ++ vs) ∧
      p.rank ≤ m' ∧ Next (fun k => g k ∧ binds k < p.rank) rest := by
  intro k
  induction k with
  | zero => exact fun _ _ _ _ _ _ _ _ => post_fuel
  | succ k ih =>
    intro a m f us ts hw hl hn
    have stop : ∀ t, Head t ts → binds t.kind < p.rank →
        ∃ vs m' g, Took vs ts ts ∧ Writes (.expr a m' g) (us ++ vs) ∧ p.rank ≤ m' ∧
          Next (fun k => g k ∧ binds k < p.rank) ts := by
      intro t ht hb
      refine ⟨[], m, f, rfl, by simpa using hw, hl, ?_⟩
      intro u hu
      rw [hu.eq ht]
      exact (hn t ht).imp id fun h => ⟨h, hb⟩
    have more : ∀ e mid, ExtendAt p.rank us ts e mid →
        Post (precLoop n r p k e) mid fun e rest => ∃ vs m' g, Took vs ts rest ∧ Writes (.expr e m' g) (us ++ vs) ∧
          p.rank ≤ m' ∧ Next (fun k => g k ∧ binds k < p.rank) rest := by
      rintro e mid ⟨vs, m', g, h1, h2, h3, h4⟩
      refine post_mono (ih e m' g (us ++ vs) mid h2 h3 h4) ?_
      rintro e' rest ⟨ws, m'', g', h5, h6, h7, h8⟩
      exact ⟨vs ++ ws, m'', g', h1.append h5, by simpa using h6, h7, h8⟩
    apply post_bind
    refine post_peek ?_
    intro t ht
    apply post_bind
    refine post_ruleOf ?_
    intro rule hrule
    split
    · next i q hq =>
      by_cases e : q.rank < p.rank
      · rw [if_pos e]
        exact post_pure (stop t ht (by rw [binds_postfix hrule hq]; exact e))
      · rw [if_neg e]
        apply post_bind
        exact post_mono (post_runPostfix hw hl _ hn i (by have := postfix_rank hrule hq; omega)) more
    · next hq =>
      split
      · next i q hi =>
        by_cases e : q.rank < p.rank
        · rw [if_pos e]
          exact post_pure (stop t ht (by rw [binds_infix hrule hi]; exact e))
        · rw [if_neg e]
          apply post_bind
          refine post_mono (post_runInfix hr hw hl _ ?_ t _ ht hn rule hrule i q hi (by omega)) more
          intro h
          exact of_decide_eq_true h
      · next hi =>
        refine post_pure (stop t ht ?_)
        rw [binds_none hrule hi hq]
        exact hp

theorem post_parsePrecedence (hr : Sound r) (p : Precedence) (hp : 1 ≤ p.rank) (ts : Input) :
    Post (parsePrecedence n r p) ts (ExprAt p.rank ts) := by
  apply post_bind
  refine post_peek ?_
  intro t _
  apply post_bind
  refine post_ruleOf ?_
  intro rule _
  split
  · exact post_fail
  · apply post_bind
    refine post_mono (post_runPrefix hr _ _ _) ?_
    rintro a mid ⟨us, m, f, h1, h2, h3, h4⟩
    have hl : p.rank ≤ m := by
      rcases h3 with rfl | ⟨hc, rfl⟩
      · cases p <;> decide
      · exact of_decide_eq_true hc
    refine post_mono (post_precLoop hr p hp _ a m f us mid h2 hl h4) ?_
    rintro e rest ⟨vs, m', g, h5, h6, h7, h8⟩
    exact ⟨us ++ vs, m', g, h1.append h5, h6, h7, h8⟩

theorem parser_sound : ∀ n, Sound (parser n) := by
  intro n
  induction n with
  | zero => exact ⟨fun _ _ _ => post_fuel, fun _ => post_fuel, fun _ => post_fuel⟩
  | succ n ih =>
    exact ⟨fun p ts hp => post_parsePrecedence ih p hp ts, fun ts => post_sequence ih ts,
      fun ts => post_ifExpression ih ts⟩

/-- What was parsed is what the consumed tokens write, and parsing stopped at the end of the input or at a
closing brace. -/
theorem parse_sound {ts : Input} {e : Expr} (h : parseTokens ts = .ok e) :
    ∃ es us rest f t, ts = us.map .ok ++ rest ∧ Writes (.seq es f) us ∧ Head t rest ∧
      (t.kind = .endOfInput ∨ t.kind = .rightCurly) ∧ f t.kind ∧ e = blockOf es := by
  unfold parseTokens at h
  cases hs : (parser (enough ts)).sequence ts with
  | error x => rw [hs] at h; cases h
  | ok x =>
    obtain ⟨e', rest⟩ := x
    rw [hs] at h
    cases h
    obtain ⟨es, h1, us, f, t, h2, h3, h4, h5, h6⟩ := (parser_sound _).sequence ts _ _ hs
    exact ⟨es, us, rest, f, t, h2, h3, h4, by simpa [endsSequence] using h5, h6, h1⟩

end Dice.Parser
