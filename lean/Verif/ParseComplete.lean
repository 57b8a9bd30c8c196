import Verif.KernelRfl
import Verif.ParseSound

/-!
# The parser accepts what the grammar says

C37 and C39, the other direction: tokens that write a program are parsed, with the tree they write.
-/

namespace Dice.Parser

open Dice.Grammar

/-- The tokens `us` before the rest of the input. -/
def app (us : List Token) (rest : Input) : Input := us.map .ok ++ rest

@[simp] theorem app_nil (rest : Input) : app [] rest = rest := rfl

@[simp] theorem app_cons (t : Token) (us : List Token) (rest : Input) :
    app (t :: us) rest = .ok t :: app us rest := rfl

@[simp] theorem app_append (us vs : List Token) (rest : Input) :
    app (us ++ vs) rest = app us (app vs rest) := by
  simp [app]

/-- A token that can come after an expression. -/
def Free (k : Kind) : Prop := ¬isAssign k ∧ ∃ rule, ruleFor k = some rule

theorem free {k : Kind} (h : k ∉ [Kind.assign, .mulAssign, .divAssign, .addAssign, .subAssign])
    (h' : k ∉ ruleless) : Free k := by
  refine ⟨not_assign h, ?_⟩
  cases e : ruleFor k with
  | none => exact absurd (ruleFor_none.1 e) h'
  | some rule => exact ⟨rule, rfl⟩

/-! ## Running a parser -/

theorem run_bind {α β : Type} {p : P α} {f : α → P β} {ts mid : Input} {a : α} {x : Except Fail (β × Input)}
    (h : p ts = .ok (a, mid)) (h' : f a mid = x) : (p >>= f) ts = x := by
  show P.bind p f ts = x
  unfold P.bind
  rw [h]
  exact h'

theorem run_map {α β : Type} {p : P α} {f : α → β} {ts mid : Input} {a : α} (h : p ts = .ok (a, mid)) :
    (f <$> p) ts = .ok (f a, mid) :=
  run_bind (f := fun a => pure (f a)) h rfl

theorem run_peek {t : Token} {ts : Input} (h : Head t ts) : peekToken ts = .ok (t, ts) := by
  cases ts with
  | nil => cases h; rfl
  | cons x ts =>
    cases x with
    | error e => exact h.elim
    | ok u => cases h; rfl

theorem run_consume {t : Token} {k : Kind} {rest : Input} (h : t.kind = k) :
    consume k (.ok t :: rest) = .ok ((), rest) := by
  refine run_bind (a := t) (mid := rest) rfl ?_
  rw [if_pos h]
  rfl

theorem run_consumeIdent {t : Token} {rest : Input} (h : t.kind = .identifier) :
    consumeIdent (.ok t :: rest) = .ok (t.text, rest) := by
  refine run_bind (a := t) (mid := rest) rfl ?_
  rw [if_pos h]
  rfl

theorem run_consumeString {t : Token} {rest : Input} (h : t.kind = .string) :
    consumeString (.ok t :: rest) = .ok (t.text, rest) := by
  refine run_bind (a := t) (mid := rest) rfl ?_
  rw [if_pos h]
  rfl

theorem run_ruleOf {k : Kind} {rule : Rule} {ts : Input} (h : ruleFor k = some rule) :
    ruleOf k ts = .ok (rule, ts) := by
  unfold ruleOf
  rw [h]
  rfl

/-! ## Parts without expressions -/

theorem run_ann {d : Kind} {t : Token} {a : TypeAnn} {us : List Token} (ht : t.kind = d) (h : Ann a us)
    {u : Token} {rest : Input} (hu : Head u rest) (hq : u.kind ≠ .questionMark) :
    parseTypeAnnotation d (app (t :: us) rest) = .ok (a, rest) := by
  cases h with
  | plain n hn =>
    refine run_bind (run_consume ht) ?_
    refine run_bind (run_consumeIdent hn) ?_
    refine run_bind (run_peek hu) ?_
    rw [if_neg hq]
    rfl
  | nullable n q hn hq' =>
    refine run_bind (run_consume ht) ?_
    refine run_bind (run_consumeIdent hn) ?_
    refine run_bind (run_peek (t := q) rfl) ?_
    rw [if_pos hq']
    refine run_bind (run_consume hq') ?_
    rfl

theorem run_return {a : Option TypeAnn} {us : List Token} (h : Ret a us) {u : Token} {rest : Input}
    (hu : Head u rest) (hk : u.kind = .leftCurly) : parseReturn (app us rest) = .ok (a, rest) := by
  cases h with
  | none =>
    refine run_bind (run_peek hu) ?_
    rw [if_neg (by rw [hk]; decide)]
    rfl
  | some t a us ht ha =>
    refine run_bind (run_peek (t := t) rfl) ?_
    rw [if_pos ht]
    exact run_map (run_ann ht ha hu (by rw [hk]; decide))

theorem run_separator_comma {c : Token} {close : Kind} {rest : Input} (hc : c.kind = .comma) :
    separator close (.ok c :: rest) = .ok ((), rest) := by
  refine run_bind (run_peek (t := c) rfl) ?_
  rw [if_pos hc]
  rfl

theorem run_separator_close {u : Token} {close : Kind} {rest : Input} (hu : Head u rest)
    (hk : u.kind = close) (hc : close ≠ .comma) : separator close rest = .ok ((), rest) := by
  refine run_bind (run_peek hu) ?_
  rw [if_neg (by rw [hk]; exact hc), if_neg (by simpa using hk)]
  rfl

theorem run_param {a : FnArg} {us : List Token} (h : Param a us) {u : Token} {rest : Input} (hu : Head u rest)
    (hq : u.kind ≠ .questionMark) (hc : u.kind ≠ .colon) : ∃ mid, consumeIdent (app us rest) = .ok (a.name, mid) ∧
      parseArgType mid = .ok (a.type_, rest) ∧ ∃ n, Head n (app us rest) ∧ n.kind = .identifier := by
  cases h with
  | untyped n hn =>
    refine ⟨rest, run_consumeIdent hn, ?_, n, rfl, hn⟩
    refine run_bind (run_peek hu) ?_
    rw [if_neg hc]
    rfl
  | typed n c a us hn hc' ha =>
    refine ⟨app (c :: us) rest, run_consumeIdent hn, ?_, n, rfl, hn⟩
    refine run_bind (run_peek (t := c) rfl) ?_
    rw [if_pos hc']
    exact run_map (run_ann hc' ha hu hq)

theorem run_argsLoop {close : Kind} (hc : close = .pipe ∨ close = .rightParen) {as : List FnArg}
    {us : List Token} (h : Params as us) {u : Token} {rest : Input} (hu : Head u rest) (hk : u.kind = close) :
    ∃ N, ∀ n, N ≤ n → argsLoop n close (app us rest) = .ok (as, rest) := by
  have nil : ∀ n, argsLoop (n + 1) close rest = .ok ([], rest) := by
    intro n
    refine run_bind (run_peek hu) ?_
    rw [if_pos hk]
    rfl
  have closeNe : close ≠ .comma ∧ close ≠ .identifier ∧ close ≠ .questionMark ∧ close ≠ .colon := by
    rcases hc with rfl | rfl <;> decide
  induction h with
  | nil =>
    refine ⟨1, fun n hn => ?_⟩
    obtain ⟨n, rfl⟩ : ∃ k, n = k + 1 := ⟨n - 1, by omega⟩
    exact nil n
  | last a us ha =>
    refine ⟨2, fun n hn => ?_⟩
    obtain ⟨n, rfl⟩ : ∃ k, n = k + 2 := ⟨n - 2, by omega⟩
    obtain ⟨mid, h1, h2, v, h3, h4⟩ := run_param ha hu (by rw [hk]; exact closeNe.2.2.1)
      (by rw [hk]; exact closeNe.2.2.2)
    refine run_bind (run_peek h3) ?_
    rw [if_neg (by rw [h4]; exact closeNe.2.1.symm)]
    refine run_bind h1 ?_
    refine run_bind h2 ?_
    refine run_bind (run_separator_close hu hk closeNe.1) ?_
    refine run_bind (nil n) ?_
    rfl
  | cons a as c us vs ha hcomma _ ih =>
    obtain ⟨N, ih⟩ := ih
    refine ⟨N + 1, fun n hn => ?_⟩
    obtain ⟨n, rfl⟩ : ∃ k, n = k + 1 := ⟨n - 1, by omega⟩
    rw [app_append, app_cons]
    obtain ⟨mid, h1, h2, v, h3, h4⟩ := run_param (rest := .ok c :: app vs rest) ha (u := c) rfl
      (by rw [hcomma]; decide) (by rw [hcomma]; decide)
    refine run_bind (run_peek h3) ?_
    rw [if_neg (by rw [h4]; exact closeNe.2.1.symm)]
    refine run_bind h1 ?_
    refine run_bind h2 ?_
    refine run_bind (run_separator_comma hcomma) ?_
    refine run_bind (ih n (by omega)) ?_
    rfl

theorem run_args {o c : Token} {open_ close : Kind} (ho : o.kind = open_) (hk : c.kind = close)
    (hc : close = .pipe ∨ close = .rightParen) {as : List FnArg} {us : List Token} (h : Params as us)
    (rest : Input) :
    ∃ N, ∀ n, N ≤ n → parseArgs n open_ close (app (o :: us ++ [c]) rest) = .ok (as, rest) := by
  obtain ⟨N, h⟩ := run_argsLoop hc h (u := c) (rest := .ok c :: rest) rfl hk
  refine ⟨N, fun n hn => ?_⟩
  rw [List.cons_append, app_cons, app_append]
  refine run_bind (run_consume ho) ?_
  refine run_bind (h n hn) ?_
  refine run_bind (run_consume hk) ?_
  rfl

theorem run_fieldsLoop {close : Kind} (hc : close = .rightCurly) {as : List String}
    {us : List Token} (h : Names as us) {u : Token} {rest : Input} (hu : Head u rest) (hk : u.kind = close) :
    ∃ N, ∀ n, N ≤ n → fieldsLoop n close (app us rest) = .ok (as, rest) := by
  have nil : ∀ n, fieldsLoop (n + 1) close rest = .ok ([], rest) := by
    intro n
    refine run_bind (run_peek hu) ?_
    rw [if_pos hk]
    rfl
  subst hc
  induction h with
  | nil =>
    refine ⟨1, fun n hn => ?_⟩
    obtain ⟨n, rfl⟩ : ∃ k, n = k + 1 := ⟨n - 1, by omega⟩
    exact nil n
  | last a ha =>
    refine ⟨2, fun n hn => ?_⟩
    obtain ⟨n, rfl⟩ : ∃ k, n = k + 2 := ⟨n - 2, by omega⟩
    refine run_bind (run_peek (t := a) rfl) ?_
    rw [if_neg (by rw [ha]; decide)]
    refine run_bind (run_consumeIdent ha) ?_
    refine run_bind (run_separator_close hu hk (by decide)) ?_
    refine run_bind (nil n) ?_
    rfl
  | cons a c as us ha hcomma _ ih =>
    obtain ⟨N, ih⟩ := ih
    refine ⟨N + 1, fun n hn => ?_⟩
    obtain ⟨n, rfl⟩ : ∃ k, n = k + 1 := ⟨n - 1, by omega⟩
    refine run_bind (run_peek (t := a) rfl) ?_
    rw [if_neg (by rw [ha]; decide)]
    refine run_bind (run_consumeIdent ha) ?_
    refine run_bind (run_separator_comma hcomma) ?_
    refine run_bind (ih n (by omega)) ?_
    rfl

theorem run_fields {o c : Token} (ho : o.kind = .leftCurly) (hk : c.kind = .rightCurly) {as : List String}
    {us : List Token} (h : Names as us) (rest : Input) :
    ∃ N, ∀ n, N ≤ n → parseFields n .leftCurly .rightCurly (app (o :: us ++ [c]) rest) = .ok (as, rest) := by
  obtain ⟨N, h⟩ := run_fieldsLoop rfl h (u := c) (rest := .ok c :: rest) rfl hk
  refine ⟨N, fun n hn => ?_⟩
  rw [List.cons_append, app_cons, app_append]
  refine run_bind (run_consume ho) ?_
  refine run_bind (h n hn) ?_
  refine run_bind (run_consume hk) ?_
  rfl

theorem run_literal {t : Token} {e : Expr} (h : Lit t e) (rest : Input) :
    literal (.ok t :: rest) = .ok (e, rest) := by
  refine run_bind (a := t) (mid := rest) rfl ?_
  cases h with
  | int n hk hd hn =>
    rw [hk]
    dsimp only
    rw [parseInt_iff.2 ⟨n, hd, hn, rfl⟩]
    rfl
  | float hk => rw [hk]; rfl
  | str hk => rw [hk, ← processString_eq]; rfl
  | true_ hk => rw [hk]; rfl
  | false_ hk => rw [hk]; rfl
  | null hk => rw [hk]; rfl

theorem run_importModule {m : Option String} {us : List Token} (h : ImportModule m us) {u : Token}
    {rest : Input} (hu : Head u rest) (hk : u.kind = .leftCurly ∨ u.kind = .from_) :
    importModule (app us rest) = .ok (m, rest) := by
  have h1 : u.kind ≠ .star ∧ u.kind ≠ .comma := by rcases hk with h | h <;> rw [h] <;> decide
  cases h with
  | none =>
    refine run_bind (run_peek hu) ?_
    rw [if_neg h1.1]
    rfl
  | some s a n hs ha hn =>
    refine run_bind (run_peek (t := s) rfl) ?_
    rw [if_pos hs]
    refine run_bind (run_consume hs) ?_
    refine run_bind (run_consume ha) ?_
    refine run_bind (run_consumeIdent hn) ?_
    refine run_bind (run_peek hu) ?_
    rw [if_neg h1.2]
    rfl
  | comma s a n c hs ha hn hc =>
    refine run_bind (run_peek (t := s) rfl) ?_
    rw [if_pos hs]
    refine run_bind (run_consume hs) ?_
    refine run_bind (run_consume ha) ?_
    refine run_bind (run_consumeIdent hn) ?_
    refine run_bind (run_peek (t := c) rfl) ?_
    rw [if_pos hc]
    refine run_bind (run_consume hc) ?_
    rfl

theorem run_importItems {ns : List String} {us : List Token} (h : ImportItems ns us) {u : Token}
    {rest : Input} (hu : Head u rest) (hk : u.kind = .from_) :
    ∃ N, ∀ n, N ≤ n → importItems n (app us rest) = .ok (ns, rest) := by
  cases h with
  | none =>
    refine ⟨0, fun n _ => ?_⟩
    refine run_bind (run_peek hu) ?_
    rw [if_neg (by rw [hk]; decide)]
    rfl
  | some o c ns us ho hc hn =>
    obtain ⟨N, h⟩ := run_fields ho hc hn rest
    refine ⟨N, fun n hn => ?_⟩
    refine run_bind (run_peek (t := o) rfl) ?_
    rw [if_pos ho]
    exact h n hn

theorem run_importDecl {t o p : Token} {m : Option String} {ns : List String} {ms is : List Token}
    (ht : t.kind = .import_) (ho : o.kind = .from_) (hp : p.kind = .string) (hm : ImportModule m ms)
    (hi : ImportItems ns is) (hne : ¬(m = none ∧ ns = [])) (rest : Input) :
    ∃ N, ∀ n, N ≤ n → importDecl n (app (t :: ms ++ is ++ [o, p]) rest) =
      .ok (.importDecl m ns (inner p.text), rest) := by
  obtain ⟨N, h⟩ := run_importItems hi (u := o) (rest := .ok o :: .ok p :: rest) rfl ho
  refine ⟨N, fun n hn => ?_⟩
  simp only [List.cons_append, app_append, app_cons, app_nil]
  refine run_bind (run_consume ht) ?_
  have : ∃ u, Head u (app is (.ok o :: .ok p :: rest)) ∧ (u.kind = .leftCurly ∨ u.kind = .from_) := by
    cases hi with
    | none => exact ⟨o, rfl, .inr ho⟩
    | some o' c ns us ho' _ _ => exact ⟨o', rfl, .inl ho'⟩
  obtain ⟨u, hu, hk⟩ := this
  refine run_bind (run_importModule hm hu hk) ?_
  refine run_bind (h n hn) ?_
  rw [if_neg hne]
  refine run_bind (run_consume ho) ?_
  refine run_bind (run_consumeString hp) ?_
  rw [processString_eq]
  rfl

/-! ## Expressions and statements -/

/-- From some bound on. -/
abbrev Ev (Q : Nat → Prop) : Prop := ∃ N, ∀ m, N ≤ m → Q m

/-- From some bound on, for both numbers. -/
abbrev Ev2 (Q : Nat → Nat → Prop) : Prop := ∃ N, ∀ m k, N ≤ m → N ≤ k → Q m k

/-- The parser of a declaration. -/
def declParser : Kind → Nat → Rec → P Expr
  | .let_, n, r => varDecl n r
  | .function, n, r => fnDecl n r
  | .operator, n, r => opDecl n r
  | .class_, n, r => classDecl n r
  | _, _, _ => P.panic

/-- Before such a token the parser of the item accepts the tokens, when its bound is large enough.  For an
expression, the loop of `parse_precedence` goes on with the expression as its left operand. -/
def Accepts : Item → List Token → Prop
  | .expr e l f, us => ∀ (p : Precedence) (t : Token) (rest : Input) (x : Except Fail (Expr × Input)),
      1 ≤ p.rank → p.rank ≤ l → Head t rest → Free t.kind → f t.kind →
      Ev2 (fun m k => precLoop m (parser m) p k e rest = x) →
      Ev fun m => parsePrecedence m (parser m) p (app us rest) = x
  | .ifExpr e f, us => ∀ (t : Token) (rest : Input), Head t rest → f t.kind →
      Ev fun m => ifExpression (parser m) (app us rest) = .ok (e, rest)
  | .block e, us => ∀ rest : Input, Ev fun m => block (parser m) (app us rest) = .ok (e, rest)
  | .items close es, us => ∀ (t : Token) (rest : Input), Head t rest → t.kind = close →
      close = .rightParen ∨ close = .rightSquare →
      Ev2 fun m k => itemsLoop (parser m) close k (app us rest) = .ok (es, rest)
  | .fields fs, us => ∀ (t : Token) (rest : Input), Head t rest → t.kind = .rightCurly →
      Ev2 fun m k => objectLoop (parser m) k (app us rest) = .ok (fs, rest)
  | .decl k e f, us => ∀ (t : Token) (rest : Input), Head t rest → Free t.kind → f t.kind →
      Ev fun m => declParser k m (parser m) (app us rest) = .ok (e, rest)
  | .members es, us => ∀ (t : Token) (rest : Input), Head t rest → t.kind = .rightCurly →
      Ev2 fun m k => classLoop m (parser m) k (app us rest) = .ok (es, rest)
  | .stmt e f, us => ∀ (t : Token) (rest : Input), Head t rest → Free t.kind → f t.kind →
      Ev fun m => statement m (parser m) (app us rest) = .ok (e, rest)
  | .seq es f, us => ∀ (t : Token) (rest : Input), Head t rest → endsSequence t.kind = true → f t.kind →
      Ev2 fun m k => sequenceLoop m (parser m) k (app us rest) = .ok ((es.dropLast, es.getLast?), rest)

/-- The level of an expression is not 0. -/
def Leveled : Item → Prop
  | .expr _ l _ => 1 ≤ l
  | _ => True

theorem leveled {i : Item} {us : List Token} (h : Writes i us) : Leveled i := by
  induction h with
  | binary op t ts a b l m f g us vs _ _ _ _ _ _ iha _ =>
    have h1 : 1 ≤ level op := by cases op <;> decide
    simp only [Leveled] at iha ⊢
    omega
  | _ =>
    simp only [Leveled, binds, closedLevel] at *
    try omega

theorem level_pos {e : Expr} {l : Nat} {f : Kind → Prop} {us : List Token} (h : Writes (.expr e l f) us) :
    1 ≤ l := leveled h

theorem free_of_stmt {k : Kind} (h : k ∈ stmtStarts) : Free k := by
  revert h
  cases k <;> intro h <;> first
    | exact free (by decide) (by decide)
    | exact absurd h (by decide)

theorem expr_stmt {k : Kind} (h : k ∈ exprStarts) : k ∈ stmtStarts := List.mem_append_left _ h

theorem run_loop_stop {m : Nat} {r : Rec} {p : Precedence} {k : Nat} {e : Expr} {t : Token} {rest : Input}
    (ht : Head t rest) (hf : Free t.kind) (hb : binds t.kind < p.rank) :
    precLoop m r p (k + 1) e rest = .ok (e, rest) := by
  obtain ⟨rule, hr⟩ := hf.2
  refine run_bind (run_peek ht) ?_
  refine run_bind (run_ruleOf hr) ?_
  cases h1 : rule.postfix_ with
  | some fq =>
    obtain ⟨f, q⟩ := fq
    dsimp only
    rw [if_pos (by have := binds_postfix hr h1; omega)]
    rfl
  | none =>
    dsimp only
    cases h2 : rule.infix_ with
    | some fq =>
      obtain ⟨f, q⟩ := fq
      dsimp only
      rw [if_pos (by have := binds_infix hr h2; omega)]
      rfl
    | none => rfl

theorem run_loop_infix {m : Nat} {r : Rec} {p q : Precedence} {k : Nat} {a e : Expr} {t : Token}
    {ts rest : Input} {rule : Rule} {i : InfixRule} (ht : Head t ts) (hr : ruleFor t.kind = some rule)
    (h1 : rule.postfix_ = none) (h2 : rule.infix_ = some (i, q)) (hp : p.rank ≤ q.rank)
    (h : runInfix m r i a (canAssign p) ts = .ok (e, rest)) :
    precLoop m r p (k + 1) a ts = precLoop m r p k e rest := by
  refine run_bind (run_peek ht) ?_
  refine run_bind (run_ruleOf hr) ?_
  rw [h1]
  dsimp only
  rw [h2]
  dsimp only
  rw [if_neg (by omega)]
  exact run_bind h rfl

theorem run_loop_postfix {m : Nat} {r : Rec} {p q : Precedence} {k : Nat} {a e : Expr} {t : Token}
    {ts rest : Input} {rule : Rule} {i : PostfixRule} (ht : Head t ts) (hr : ruleFor t.kind = some rule)
    (h1 : rule.postfix_ = some (i, q)) (hp : p.rank ≤ q.rank)
    (h : runPostfix i a ts = .ok (e, rest)) :
    precLoop m r p (k + 1) a ts = precLoop m r p k e rest := by
  refine run_bind (run_peek ht) ?_
  refine run_bind (run_ruleOf hr) ?_
  rw [h1]
  dsimp only
  rw [if_neg (by omega)]
  exact run_bind h rfl

/-- An expression before a token that does not bind to it. -/
theorem Accepts.stop {e : Expr} {l : Nat} {f : Kind → Prop} {us : List Token} (h : Accepts (.expr e l f) us)
    (p : Precedence) {t : Token} {rest : Input} (hp : 1 ≤ p.rank) (hl : p.rank ≤ l) (ht : Head t rest)
    (hf : Free t.kind) (hn : f t.kind) (hb : binds t.kind < p.rank) :
    Ev fun m => (parser m).prec p (app us rest) = .ok (e, rest) := by
  obtain ⟨N, h⟩ := h p t rest (.ok (e, rest)) hp hl ht hf hn ⟨1, fun m k _ hk => by
    obtain ⟨k, rfl⟩ : ∃ j, k = j + 1 := ⟨k - 1, by omega⟩
    exact run_loop_stop ht hf hb⟩
  refine ⟨N + 1, fun m hm => ?_⟩
  obtain ⟨m, rfl⟩ : ∃ j, m = j + 1 := ⟨m - 1, by omega⟩
  exact h m (by omega)

theorem Accepts.whole {e : Expr} {l : Nat} {f : Kind → Prop} {us : List Token} (h : Accepts (.expr e l f) us)
    (hw : Writes (.expr e l f) us) {t : Token} {rest : Input} (ht : Head t rest)
    (hf : Free t.kind) (hn : f t.kind) (hb : binds t.kind = 0) :
    Ev fun m => (parser m).expr (app us rest) = .ok (e, rest) :=
  h.stop .assignment (by decide) (level_pos hw) ht hf hn (by rw [hb]; decide)

theorem run_prefix {p : Precedence} {t : Token} {ts rest : Input} {e : Expr} {rule : Rule} {i : PrefixRule}
    {x : Except Fail (Expr × Input)} (ht : Head t ts) (hr : ruleFor t.kind = some rule)
    (hi : rule.prefix_ = some i) (h : Ev fun m => runPrefix m (parser m) i (canAssign p) ts = .ok (e, rest))
    (hx : Ev2 fun m k => precLoop m (parser m) p k e rest = x) :
    Ev fun m => parsePrecedence m (parser m) p ts = x := by
  obtain ⟨N, h⟩ := h
  obtain ⟨M, hx⟩ := hx
  refine ⟨N + M, fun m hm => ?_⟩
  refine run_bind (run_peek ht) ?_
  refine run_bind (run_ruleOf hr) ?_
  rw [hi]
  exact run_bind (h m (by omega)) (hx m m (by omega) (by omega))

theorem Accepts.infix {a e : Expr} {l : Nat} {f : Kind → Prop} {us : List Token}
    (h : Accepts (.expr a l f) us) {p q : Precedence} {t : Token} {ts rest : Input} {rule : Rule} {i : InfixRule}
    {x : Except Fail (Expr × Input)} (hp : 1 ≤ p.rank) (hl : p.rank ≤ l) (ht : Head t ts) (hn : f t.kind)
    (hr : ruleFor t.kind = some rule) (h1 : rule.postfix_ = none) (h2 : rule.infix_ = some (i, q))
    (hq : p.rank ≤ q.rank) (hi : Ev fun m => runInfix m (parser m) i a (canAssign p) ts = .ok (e, rest))
    (hx : Ev2 fun m k => precLoop m (parser m) p k e rest = x) :
    Ev fun m => parsePrecedence m (parser m) p (app us ts) = x := by
  have hb : binds t.kind ≠ 0 := by have := binds_infix hr h2; omega
  refine h p t ts x hp hl ht ⟨binds_not_assign hb, rule, hr⟩ hn ?_
  obtain ⟨N, hi⟩ := hi
  obtain ⟨M, hx⟩ := hx
  refine ⟨N + M + 1, fun m k hm hk => ?_⟩
  obtain ⟨k, rfl⟩ : ∃ j, k = j + 1 := ⟨k - 1, by omega⟩
  rw [run_loop_infix ht hr h1 h2 hq (hi m (by omega))]
  exact hx m k (by omega) (by omega)

theorem Accepts.postfix {a e : Expr} {l : Nat} {f : Kind → Prop} {us : List Token}
    (h : Accepts (.expr a l f) us) {p q : Precedence} {t : Token} {ts rest : Input} {rule : Rule}
    {i : PostfixRule} {x : Except Fail (Expr × Input)} (hp : 1 ≤ p.rank) (hl : p.rank ≤ l) (ht : Head t ts)
    (hn : f t.kind) (hr : ruleFor t.kind = some rule) (h1 : rule.postfix_ = some (i, q))
    (hq : p.rank ≤ q.rank) (hi : runPostfix i a ts = .ok (e, rest))
    (hx : Ev2 fun m k => precLoop m (parser m) p k e rest = x) :
    Ev fun m => parsePrecedence m (parser m) p (app us ts) = x := by
  have hb : binds t.kind ≠ 0 := by have := binds_postfix hr h1; omega
  refine h p t ts x hp hl ht ⟨binds_not_assign hb, rule, hr⟩ hn ?_
  obtain ⟨M, hx⟩ := hx
  refine ⟨M + 1, fun m k hm hk => ?_⟩
  obtain ⟨k, rfl⟩ : ∃ j, k = j + 1 := ⟨k - 1, by omega⟩
  rw [run_loop_postfix ht hr h1 hq hi]
  exact hx m k (by omega) (by omega)

theorem run_noAssign {r : Rec} {lhs : Expr} {c : Bool} {t : Token} {rest : Input} (ht : Head t rest)
    (hf : ¬isAssign t.kind) : parseAssignment r lhs c rest = .ok (lhs, rest) := by
  refine run_bind (run_peek ht) ?_
  have : assignOp t.kind = none := by
    cases h : assignOp t.kind with
    | none => rfl
    | some op => exact absurd ⟨op, (assignOp_some.1 h).symm⟩ hf
  rw [this]
  cases c <;> rfl

theorem run_assign {r : Rec} {lhs b : Expr} {op : AssignOp} {t : Token} {mid rest : Input}
    (ht : t.kind = assignKind op) (h : r.expr mid = .ok (b, rest)) :
    parseAssignment r lhs true (.ok t :: mid) = .ok (.assign op lhs b, rest) := by
  refine run_bind (run_peek (t := t) rfl) ?_
  rw [assignOp_some.2 ht]
  refine run_bind (a := t) (mid := mid) rfl ?_
  refine run_bind h ?_
  rfl

theorem canAssign_low {p : Precedence} (h : p.rank ≤ 1) : canAssign p = true := decide_eq_true h

theorem headOf {us : List Token} {Q : Token → Prop} (h : ∃ t vs, us = t :: vs ∧ Q t) (rest : Input) :
    ∃ t, Head t (app us rest) ∧ Q t := by
  obtain ⟨t, vs, rfl, h⟩ := h
  exact ⟨t, rfl, h⟩

/-- The part of an `if` up to its first block. -/
theorem run_if {t : Token} {c b : Expr} {l : Nat} {f : Kind → Prop} {us vs : List Token} {e : Option Expr}
    {mid rest : Input} (ht : t.kind = .if_) (hc : Writes (.expr c l f) us) (hf : f .leftCurly)
    (hb : Writes (.block b) vs) (ihc : Accepts (.expr c l f) us) (ihb : Accepts (.block b) vs)
    (h : Ev fun m => elseBranch (parser m) mid = .ok (e, rest)) :
    Ev fun m => ifExpression (parser m) (.ok t :: app us (app vs mid)) = .ok (.ifExpr c b e, rest) := by
  obtain ⟨u, hu, hk⟩ := headOf (first hb) mid
  obtain ⟨N, h1⟩ := ihc.whole hc hu (by rw [hk]; exact free (by decide) (by decide)) (by rw [hk]; exact hf)
    (by rw [hk]; rfl)
  obtain ⟨M, h2⟩ := ihb mid
  obtain ⟨K, h3⟩ := h
  refine ⟨N + M + K, fun m hm => ?_⟩
  refine run_bind (run_consume ht) ?_
  refine run_bind (h1 m (by omega)) ?_
  refine run_bind (h2 m (by omega)) ?_
  refine run_bind (h3 m (by omega)) ?_
  rfl

theorem opRule (op : BinaryOp) : ∃ rule q, ruleFor (opKind op) = some rule ∧ rule.postfix_ = none ∧
    rule.infix_ = some (.binaryOperator, q) ∧ q.rank = level op ∧ q.increment.rank = level op + 1 := by
  cases op <;> exact ⟨_, _, rfl, rfl, rfl, rfl, rfl⟩

theorem run_secondPipe {op : BinaryOp} {ts : List Token} (h : ts.map (·.kind) = opRest op) (rest : Input) :
    secondPipe (opKind op) (app ts rest) = .ok ((), rest) := by
  have nil : ∀ {ts : List Token}, ts.map (·.kind) = [] → ts = [] := by intro ts h; simpa using h
  cases op <;> first
    | (cases nil h; rfl)
    | (cases ts with
       | nil => cases h
       | cons t ts =>
         simp only [List.map_cons, opRest, List.cons.injEq] at h
         cases nil h.2
         exact run_consume h.1)

theorem endsSequence_iff {k : Kind} : endsSequence k = true ↔ k = .endOfInput ∨ k = .rightCurly := by
  simp [endsSequence]

theorem free_of_ends {k : Kind} (h : endsSequence k = true) : Free k := by
  rcases endsSequence_iff.1 h with rfl | rfl <;> exact free (by decide) (by decide)

theorem stmt_not_ends {k : Kind} (h : k ∈ stmtStarts) : endsSequence k = false := by
  revert h
  cases k <;> decide


macro "flat" : tactic => `(tactic|
  simp only [List.cons_append, List.append_assoc, List.nil_append, app_append, app_cons, app_nil])

/-- `Free` of a concrete kind. -/
macro "isfree" h:term : tactic => `(tactic| (rw [$h:term]; exact free (by decide) (by decide)))

theorem run_items {o c : Token} {ko kc : Kind} (ho : o.kind = ko) (hc : c.kind = kc) {es : List Expr}
    {us : List Token} (ih : Accepts (.items kc es) us) (hk : kc = .rightParen ∨ kc = .rightSquare)
    (g : List Expr → Expr) (rest : Input) :
    Ev fun m => (do consume ko; let es ← itemsLoop (parser m) kc m; consume kc; pure (g es) : P Expr)
      (.ok o :: app us (.ok c :: rest)) = .ok (g es, rest) := by
  obtain ⟨N, h⟩ := ih c (.ok c :: rest) rfl hc hk
  refine ⟨N, fun m hm => ?_⟩
  refine run_bind (run_consume ho) ?_
  refine run_bind (h m m hm hm) ?_
  refine run_bind (run_consume hc) ?_
  rfl

theorem accepts {i : Item} {us : List Token} (h : Writes i us) : Accepts i us := by
  induction h with
  | lit t e h =>
    intro p u rest x hp hl ht hf hn hx
    have hr : ruleFor t.kind = some { prefix_ := some .literal } := by
      cases h with
      | int _ h => rw [h]; rfl
      | float h => rw [h]; rfl
      | str h => rw [h]; rfl
      | true_ h => rw [h]; rfl
      | false_ h => rw [h]; rfl
      | null h => rw [h]; rfl
    exact run_prefix (t := t) rfl hr rfl ⟨0, fun m _ => run_literal h rest⟩ hx
  | ident n h =>
    intro p u rest x hp hl ht hf hn hx
    refine run_prefix (t := n) rfl (by rw [h]; rfl) rfl ⟨0, fun m _ => ?_⟩ hx
    refine run_bind (a := n) (mid := rest) rfl ?_
    rw [if_pos h]
    exact run_noAssign ht hf.1
  | unit o c ho hc =>
    intro p u rest x hp hl ht hf hn hx
    refine run_prefix (t := o) rfl (by rw [ho]; rfl) rfl ⟨0, fun m _ => ?_⟩ hx
    refine run_bind (run_consume ho) ?_
    refine run_bind (run_peek (t := c) rfl) ?_
    rw [if_pos hc]
    refine run_bind (run_consume hc) ?_
    rfl
  | group o c e l f us ho hc hw hf' ih =>
    intro p u rest x hp hl ht hf hn hx
    obtain ⟨N, h⟩ := ih.whole hw (t := c) (rest := .ok c :: rest) rfl (by isfree hc) (by rw [hc]; exact hf')
      (by rw [hc]; rfl)
    flat
    refine run_prefix (t := o) rfl (by rw [ho]; rfl) rfl ⟨N, fun m hm => ?_⟩ hx
    refine run_bind (run_consume ho) ?_
    obtain ⟨v, hv, hk⟩ := headOf (first hw) (.ok c :: rest)
    refine run_bind (run_peek hv) ?_
    rw [if_neg (by rintro e; rw [e] at hk; revert hk; decide)]
    refine run_bind (h m hm) ?_
    refine run_bind (run_consume hc) ?_
    rfl
  | ifExpr e f us hw ih =>
    intro p u rest x hp hl ht hf hn hx
    obtain ⟨v, hv, hk⟩ := headOf (first hw) rest
    exact run_prefix (i := .ifExpression) hv (by rw [hk]; rfl) rfl (ih u rest ht hn) hx
  | block e us hw ih =>
    intro p u rest x hp hl ht hf hn hx
    obtain ⟨v, hv, hk⟩ := headOf (first hw) rest
    exact run_prefix (i := .blockExpression) hv (by rw [hk]; rfl) rfl (ih rest) hx
  | list o c es us ho hc hw ih =>
    intro p u rest x hp hl ht hf hn hx
    flat
    exact run_prefix (i := .list) (t := o) rfl (by rw [ho]; rfl) rfl (run_items ho hc ih (.inr rfl) .list rest) hx
  | object t o c fs us ht' ho hc hw ih =>
    intro p u rest x hp hl ht hf hn hx
    flat
    obtain ⟨N, h⟩ := ih c (.ok c :: rest) rfl hc
    refine run_prefix (t := t) rfl (by rw [ht']; rfl) rfl ⟨N, fun m hm => ?_⟩ hx
    refine run_bind (run_consume ht') ?_
    refine run_bind (run_consume ho) ?_
    refine run_bind (h m m hm hm) ?_
    refine run_bind (run_consume hc) ?_
    rfl
  | superField t d n ht' hd hn' =>
    intro p u rest x hp hl ht hf hn hx
    refine run_prefix (t := t) rfl (by rw [ht']; rfl) rfl ⟨0, fun m hm => ?_⟩ hx
    refine run_bind (run_consume ht') ?_
    refine run_bind (run_peek (t := d) rfl) ?_
    rw [hd]
    dsimp only
    refine run_bind (a := none) (mid := .ok d :: .ok n :: rest) ?_ ?_
    · refine run_bind (run_peek (t := d) rfl) ?_
      rw [if_neg (by rw [hd]; decide)]
      rfl
    refine run_bind (run_consume hd) ?_
    refine run_bind (run_consumeIdent hn') ?_
    rfl
  | superClassField t o q c d n ht' ho hq hc hd hn' =>
    intro p u rest x hp hl ht hf hn hx
    refine run_prefix (t := t) rfl (by rw [ht']; rfl) rfl ⟨0, fun m hm => ?_⟩ hx
    refine run_bind (run_consume ht') ?_
    refine run_bind (run_peek (t := o) rfl) ?_
    rw [ho]
    dsimp only
    refine run_bind (a := some q.text) (mid := .ok d :: .ok n :: rest) ?_ ?_
    · refine run_bind (run_peek (t := o) rfl) ?_
      rw [if_pos ho]
      refine run_bind (run_consume ho) ?_
      refine run_bind (run_consumeIdent hq) ?_
      refine run_bind (run_consume hc) ?_
      rfl
    refine run_bind (run_consume hd) ?_
    refine run_bind (run_consumeIdent hn') ?_
    rfl
  | superCall t o c es us ht' ho hc hw ih =>
    intro p u rest x hp hl ht hf hn hx
    flat
    obtain ⟨N, h⟩ := run_items ho hc ih (.inl rfl) .superCall rest
    refine run_prefix (t := t) rfl (by rw [ht']; rfl) rfl ⟨N, fun m hm => ?_⟩ hx
    refine run_bind (run_consume ht') ?_
    refine run_bind (run_peek (t := o) rfl) ?_
    rw [ho]
    exact h m hm
  | anonFn o c ps us e l f vs ho hc hps hlen hw ih =>
    intro p u rest x hp hl ht hf hn hx
    obtain ⟨N, h1⟩ := run_args ho hc (.inl rfl) hps (app vs rest)
    obtain ⟨M, h2⟩ := ih.whole hw ht hf hn.1 hn.2
    simp only [List.cons_append, app_append, app_cons, app_nil] at h1
    flat
    refine run_prefix (t := o) rfl (by rw [ho]; rfl) rfl ⟨N + M, fun m hm => ?_⟩ hx
    refine run_bind (h1 m (by omega)) ?_
    rw [if_neg (by omega)]
    refine run_bind (h2 m (by omega)) ?_
    rfl
  | unary op t e l f us ht' hw hlev ih =>
    intro p u rest x hp hl ht hf hn hx
    obtain ⟨N, h⟩ := ih.stop .unary (by decide) hlev ht hf hn.1 hn.2
    flat
    refine run_prefix (i := .prefixOperator) (t := t) rfl
      (rule := (ruleFor t.kind).getD {}) (by rw [ht']; cases op <;> rfl) (by rw [ht']; cases op <;> rfl)
      ⟨N, fun m hm => ?_⟩ hx
    refine run_bind (a := t) (mid := app us rest) rfl ?_
    refine run_bind (h m hm) ?_
    rw [ht']
    cases op <;> rfl
  | binary op t ts a b l m f g us vs ht' hts ha hfa hb hlev iha ihb =>
    intro p u rest x hp hl ht hf hn hx
    obtain ⟨rule, q, hr, h1, h2, h3, h4⟩ := opRule op
    obtain ⟨N, h⟩ := ihb.stop q.increment (by omega) (by omega) ht hf hn.1 (by omega)
    flat
    refine iha.infix (t := t) hp (by omega) rfl (by rw [ht']; exact hfa) (by rw [ht']; exact hr) h1 h2 (by omega)
      ⟨N, fun m hm => ?_⟩ hx
    refine run_bind (a := t) (mid := app ts (app vs rest)) rfl ?_
    rw [ht', binaryOp_iff.2 rfl]
    dsimp only
    refine run_bind (run_secondPipe hts _) ?_
    refine run_bind (run_ruleOf hr) ?_
    rw [h2]
    dsimp only
    refine run_bind (h m hm) ?_
    rfl
  | isType t n a l f us ht' hn' hw hfa ih =>
    intro p u rest x hp hl ht hf hn hx
    flat
    refine ih.infix (t := t) hp (by omega) rfl (by rw [ht']; exact hfa) (by rw [ht']; rfl) rfl rfl
      (Nat.le_trans hl (Nat.min_le_right _ _)) ⟨0, fun m hm => ?_⟩ hx
    exact run_bind (run_ann ht' (.plain n hn') ht hn) rfl
  | isNullable t n q a l f us ht' hn' hq hw hfa ih =>
    intro p u rest x hp hl ht hf hn hx
    flat
    refine ih.infix (t := t) hp (by omega) rfl (by rw [ht']; exact hfa) (by rw [ht']; rfl) rfl rfl
      (Nat.le_trans hl (Nat.min_le_right _ _)) ⟨0, fun m hm => ?_⟩ hx
    refine run_bind (mid := rest) (a := ⟨n.text, true⟩) ?_ rfl
    refine run_bind (run_consume ht') ?_
    refine run_bind (run_consumeIdent hn') ?_
    refine run_bind (run_peek (t := q) rfl) ?_
    rw [if_pos hq]
    refine run_bind (run_consume hq) ?_
    rfl
  | nullProp t a l f us ht' hw hfa ih =>
    intro p u rest x hp hl ht hf hn hx
    flat
    refine ih.postfix (t := t) hp (by omega) rfl (by rw [ht']; exact hfa) (by rw [ht']; rfl) rfl
      (Nat.le_trans hl (Nat.min_le_right _ _)) ?_ hx
    exact run_bind (run_consume ht') rfl
  | errProp t a l f us ht' hw hfa ih =>
    intro p u rest x hp hl ht hf hn hx
    flat
    refine ih.postfix (t := t) hp (by omega) rfl (by rw [ht']; exact hfa) (by rw [ht']; rfl) rfl
      (Nat.le_trans hl (Nat.min_le_right _ _)) ?_ hx
    exact run_bind (run_consume ht') rfl
  | field t n a l f us ht' hn' hw hfa ih =>
    intro p u rest x hp hl ht hf hn hx
    flat
    refine ih.infix (t := t) hp (by omega) rfl (by rw [ht']; exact hfa) (by rw [ht']; rfl) rfl rfl
      (Nat.le_trans hl (Nat.min_le_right _ _)) ⟨0, fun m hm => ?_⟩ hx
    refine run_bind (run_consume ht') ?_
    refine run_bind (run_consumeIdent hn') ?_
    exact run_noAssign ht hf.1
  | index o c a b l m f g us vs ho hc ha hfa hb hgb iha ihb =>
    intro p u rest x hp hl ht hf hn hx
    obtain ⟨N, h⟩ := ihb.whole hb (t := c) (rest := .ok c :: rest) rfl (by isfree hc) (by rw [hc]; exact hgb)
      (by rw [hc]; rfl)
    flat
    refine iha.infix (t := o) hp (by omega) rfl (by rw [ho]; exact hfa) (by rw [ho]; rfl) rfl rfl
      (Nat.le_trans hl (Nat.min_le_right _ _)) ⟨N, fun m hm => ?_⟩ hx
    refine run_bind (run_consume ho) ?_
    refine run_bind (h m hm) ?_
    refine run_bind (run_consume hc) ?_
    exact run_noAssign ht hf.1
  | call o c a l f es us vs ho hc ha hfa hes iha ihes =>
    intro p u rest x hp hl ht hf hn hx
    obtain ⟨N, h⟩ := run_items ho hc ihes (.inl rfl) (.call a) rest
    flat
    refine iha.infix (t := o) hp (by omega) rfl (by rw [ho]; exact hfa) (by rw [ho]; rfl) rfl rfl
      (Nat.le_trans hl (Nat.min_le_right _ _)) ⟨N, fun m hm => ?_⟩ hx
    refine run_bind (run_peek (t := o) rfl) ?_
    rw [if_neg (by rw [ho]; decide)]
    exact h m hm
  | callBackslash t a l f us ht' hw hfa ih =>
    intro p u rest x hp hl ht hf hn hx
    flat
    refine ih.infix (t := t) hp (by omega) rfl (by rw [ht']; exact hfa) (by rw [ht']; rfl) rfl rfl
      (Nat.le_trans hl (Nat.min_le_right _ _)) ⟨0, fun m hm => ?_⟩ hx
    refine run_bind (run_peek (t := t) rfl) ?_
    rw [if_pos ht']
    refine run_bind (a := t) (mid := rest) rfl ?_
    rw [processString_eq]
    rfl
  | orElse t n a b l f us vs ht' hn' ha hfa hb iha ihb =>
    intro p u rest x hp hl ht hf hn hx
    obtain ⟨N, h⟩ := ihb rest
    flat
    refine iha.infix (t := t) hp (by omega) rfl (by rw [ht']; exact hfa) (by rw [ht']; rfl) rfl rfl
      (Nat.le_trans hl (Nat.min_le_right _ _)) ⟨N, fun m hm => ?_⟩ hx
    refine run_bind (run_consume ht') ?_
    refine run_bind (run_consumeIdent hn') ?_
    refine run_bind (h m hm) ?_
    rfl
  | assignIdent op n t b m g vs hn' ht' hb ih =>
    intro p u rest x hp hl ht hf hn hx
    obtain ⟨N, h⟩ := ih.whole hb ht hf hn.1 hn.2
    flat
    refine run_prefix (t := n) rfl (by rw [hn']; rfl) rfl ⟨N, fun m hm => ?_⟩ hx
    refine run_bind (a := n) (mid := .ok t :: app vs rest) rfl ?_
    rw [if_pos hn', canAssign_low hl]
    exact run_assign ht' (h m hm)
  | assignField op d n t a b l m f g us vs hd hn' ht' ha hfa hb iha ihb =>
    intro p u rest x hp hl ht hf hn hx
    obtain ⟨N, h⟩ := ihb.whole hb ht hf hn.1 hn.2
    have hla := level_pos ha
    flat
    refine iha.infix (t := d) hp (by omega) rfl (by rw [hd]; exact hfa) (by rw [hd]; rfl) rfl rfl
      (Nat.le_trans hl (by decide)) ⟨N, fun m hm => ?_⟩ hx
    refine run_bind (run_consume hd) ?_
    refine run_bind (run_consumeIdent hn') ?_
    rw [canAssign_low hl]
    exact run_assign ht' (h m hm)
  | assignIndex op o c t a i b l j m f h g us is vs ho hc ht' ha hfa hi hhi hb iha ihi ihb =>
    intro p u rest x hp hl ht hf hn hx
    obtain ⟨N, h1⟩ := ihb.whole hb ht hf hn.1 hn.2
    obtain ⟨M, h2⟩ := ihi.whole hi (t := c) (rest := .ok c :: .ok t :: app vs rest) rfl (by isfree hc)
      (by rw [hc]; exact hhi) (by rw [hc]; rfl)
    have hla := level_pos ha
    flat
    refine iha.infix (t := o) hp (by omega) rfl (by rw [ho]; exact hfa) (by rw [ho]; rfl) rfl rfl
      (Nat.le_trans hl (by decide)) ⟨N + M, fun m hm => ?_⟩ hx
    refine run_bind (run_consume ho) ?_
    refine run_bind (h2 m (by omega)) ?_
    refine run_bind (run_consume hc) ?_
    rw [canAssign_low hl]
    exact run_assign ht' (h1 m (by omega))
  | ifNoElse t c b l f us vs ht' hc hfc hb ihc ihb =>
    intro u rest hu hn
    flat
    refine run_if ht' hc hfc hb ihc ihb ⟨0, fun m _ => ?_⟩
    refine run_bind (run_peek hu) ?_
    rw [if_neg hn]
    rfl
  | ifElse t e c b d l f us vs ws ht' he hc hfc hb hd ihc ihb ihd =>
    intro u rest hu hn
    flat
    obtain ⟨N, h⟩ := ihd rest
    refine run_if ht' hc hfc hb ihc ihb ⟨N, fun m hm => ?_⟩
    refine run_bind (run_peek (t := e) rfl) ?_
    rw [if_pos he]
    refine run_bind (run_consume he) ?_
    obtain ⟨v, hv, hk⟩ := headOf (first hd) rest
    refine run_bind (run_peek hv) ?_
    rw [if_neg (by rw [hk]; decide), if_pos hk]
    exact run_map (h m hm)
  | ifElseIf t e c b d l f g us vs ws ht' he hc hfc hb hd ihc ihb ihd =>
    intro u rest hu hn
    flat
    obtain ⟨N, h⟩ := ihd u rest hu hn
    refine run_if ht' hc hfc hb ihc ihb ⟨N + 1, fun m hm => ?_⟩
    refine run_bind (run_peek (t := e) rfl) ?_
    rw [if_pos he]
    refine run_bind (run_consume he) ?_
    obtain ⟨v, hv, hk⟩ := headOf (first hd) rest
    refine run_bind (run_peek hv) ?_
    rw [if_pos hk]
    obtain ⟨m, rfl⟩ : ∃ j, m = j + 1 := ⟨m - 1, by omega⟩
    exact run_map (h m (by omega))
  | ifLooseElse t e c b l f us vs ht' he hc hfc hb ihc ihb =>
    intro u rest hu hn
    flat
    refine run_if ht' hc hfc hb ihc ihb ⟨0, fun m hm => ?_⟩
    refine run_bind (run_peek (t := e) rfl) ?_
    rw [if_pos he]
    refine run_bind (run_consume he) ?_
    refine run_bind (run_peek hu) ?_
    rw [if_neg hn.1, if_neg hn.2]
    rfl
  | braces o c es f us ho hc hw hfc ih =>
    intro rest
    obtain ⟨N, h⟩ := ih c (.ok c :: rest) rfl (by rw [hc]; decide) (by rw [hc]; exact hfc)
    refine ⟨N + 1, fun m hm => ?_⟩
    obtain ⟨m, rfl⟩ : ∃ j, m = j + 1 := ⟨m - 1, by omega⟩
    flat
    refine run_bind (run_consume ho) ?_
    refine run_bind (mid := .ok c :: rest) (a := blockOf es) ?_ ?_
    · exact run_bind (h m m (by omega) (by omega)) rfl
    refine run_bind (run_consume hc) ?_
    rfl
  | itemsNil close =>
    intro t rest ht hk hc
    refine ⟨1, fun m k _ hk' => ?_⟩
    obtain ⟨k, rfl⟩ : ∃ j, k = j + 1 := ⟨k - 1, by omega⟩
    refine run_bind (run_peek ht) ?_
    rw [if_pos hk]
    rfl
  | itemsLast close e l f us hw hfc ih =>
    intro t rest ht hk hc
    have hfree : Free close := by rcases hc with rfl | rfl <;> exact free (by decide) (by decide)
    have hb : binds close = 0 := by rcases hc with rfl | rfl <;> rfl
    have hx : close ∉ exprStarts ∧ close ≠ .comma := by rcases hc with rfl | rfl <;> decide
    obtain ⟨N, h⟩ := ih.whole hw ht (by rw [hk]; exact hfree) (by rw [hk]; exact hfc) (by rw [hk]; exact hb)
    refine ⟨N + 2, fun m k hm hk' => ?_⟩
    obtain ⟨k, rfl⟩ : ∃ j, k = j + 2 := ⟨k - 2, by omega⟩
    obtain ⟨v, hv, hvk⟩ := headOf (first hw) rest
    refine run_bind (run_peek hv) ?_
    rw [if_neg (by rintro e; rw [e] at hvk; exact hx.1 hvk)]
    refine run_bind (h m (by omega)) ?_
    refine run_bind (run_separator_close ht hk hx.2) ?_
    refine run_bind (a := []) (mid := rest) ?_ rfl
    refine run_bind (run_peek ht) ?_
    rw [if_pos hk]
    rfl
  | itemsCons close c e l f es us vs hcm hw hfc hes ihe ihes =>
    intro t rest ht hk hc
    have hx : close ∉ exprStarts := by rcases hc with rfl | rfl <;> decide
    obtain ⟨N, h⟩ := ihe.whole hw (t := c) (rest := .ok c :: app vs rest) rfl (by isfree hcm)
      (by rw [hcm]; exact hfc) (by rw [hcm]; rfl)
    obtain ⟨M, h'⟩ := ihes t rest ht hk hc
    refine ⟨N + M + 1, fun m k hm hk' => ?_⟩
    obtain ⟨k, rfl⟩ : ∃ j, k = j + 1 := ⟨k - 1, by omega⟩
    flat
    obtain ⟨v, hv, hvk⟩ := headOf (first hw) (.ok c :: app vs rest)
    refine run_bind (run_peek hv) ?_
    rw [if_neg (by rintro e; rw [e] at hvk; exact hx hvk)]
    refine run_bind (h m (by omega)) ?_
    refine run_bind (run_separator_comma hcm) ?_
    refine run_bind (h' m k (by omega) (by omega)) ?_
    rfl
  | fieldsNil =>
    intro t rest ht hk
    refine ⟨1, fun m k _ hk' => ?_⟩
    obtain ⟨k, rfl⟩ : ∃ j, k = j + 1 := ⟨k - 1, by omega⟩
    refine run_bind (run_peek ht) ?_
    rw [if_pos hk]
    rfl
  | fieldsLast q d e l f us hq hd hw hfc ih =>
    intro t rest ht hk
    obtain ⟨N, h⟩ := ih.whole hw ht (by isfree hk) (by rw [hk]; exact hfc) (by rw [hk]; rfl)
    refine ⟨N + 2, fun m k hm hk' => ?_⟩
    obtain ⟨k, rfl⟩ : ∃ j, k = j + 2 := ⟨k - 2, by omega⟩
    flat
    refine run_bind (run_peek (t := q) rfl) ?_
    rw [if_neg (by rintro e; rw [e] at hq; revert hq; decide)]
    refine run_bind (a := q.text) (mid := .ok d :: app us rest) ?_ ?_
    · refine run_bind (a := q) (mid := .ok d :: app us rest) rfl ?_
      rw [if_pos (by simpa using hq)]
      rfl
    refine run_bind (run_consume hd) ?_
    refine run_bind (h m (by omega)) ?_
    refine run_bind (run_separator_close ht hk (by decide)) ?_
    refine run_bind (a := []) (mid := rest) ?_ rfl
    refine run_bind (run_peek ht) ?_
    rw [if_pos hk]
    rfl
  | fieldsCons q d c e l f fs us vs hq hd hcm hw hfc hfs ihe ihfs =>
    intro t rest ht hk
    obtain ⟨N, h⟩ := ihe.whole hw (t := c) (rest := .ok c :: app vs rest) rfl (by isfree hcm)
      (by rw [hcm]; exact hfc) (by rw [hcm]; rfl)
    obtain ⟨M, h'⟩ := ihfs t rest ht hk
    refine ⟨N + M + 1, fun m k hm hk' => ?_⟩
    obtain ⟨k, rfl⟩ : ∃ j, k = j + 1 := ⟨k - 1, by omega⟩
    flat
    refine run_bind (run_peek (t := q) rfl) ?_
    rw [if_neg (by rintro e; rw [e] at hq; revert hq; decide)]
    refine run_bind (a := q.text) (mid := .ok d :: app us (.ok c :: app vs rest)) ?_ ?_
    · refine run_bind (a := q) (mid := .ok d :: app us (.ok c :: app vs rest)) rfl ?_
      rw [if_pos (by simpa using hq)]
      rfl
    refine run_bind (run_consume hd) ?_
    refine run_bind (h m (by omega)) ?_
    refine run_bind (run_separator_comma hcm) ?_
    refine run_bind (h' m k (by omega) (by omega)) ?_
    rfl
  | letDecl t a mu k e l f ms ps us ht' ha hm hp hw ih =>
    intro u rest hu hf hn
    obtain ⟨N, h⟩ := ih.whole hw hu hf hn.1 hn.2
    have hpat : Ev fun m => varKind m (app ps (.ok a :: app us rest)) = .ok (k, .ok a :: app us rest) := by
      cases hp with
      | name n hn' =>
        refine ⟨0, fun m _ => ?_⟩
        refine run_bind (run_peek (t := n) rfl) ?_
        rw [hn']
        exact run_bind (a := n) (mid := .ok a :: app us rest) rfl rfl
      | names o c ns us' ho hc hns =>
        obtain ⟨M, h2⟩ := run_fields ho hc hns (.ok a :: app us rest)
        refine ⟨M, fun m hm => ?_⟩
        refine run_bind (run_peek (t := o) rfl) ?_
        rw [ho]
        exact run_map (h2 m hm)
    obtain ⟨M, h2⟩ := hpat
    refine ⟨N + M, fun m hm' => ?_⟩
    flat
    refine run_bind (run_consume ht') ?_
    refine run_bind (a := mu) (mid := app ps (.ok a :: app us rest)) ?_ ?_
    · cases hm with
      | no =>
        have : ∃ v, Head v (app ps (.ok a :: app us rest)) ∧ v.kind ≠ .mut := by
          cases hp with
          | name n hn' => exact ⟨n, rfl, by rw [hn']; decide⟩
          | names o c ns us' ho hc hns => exact ⟨o, rfl, by rw [ho]; decide⟩
        obtain ⟨v, hv, hvk⟩ := this
        refine run_bind (run_peek hv) ?_
        rw [if_neg hvk]
        rfl
      | yes w hw' =>
        refine run_bind (run_peek (t := w) rfl) ?_
        rw [if_pos hw']
        exact run_bind (run_consume hw') rfl
    refine run_bind (h2 m (by omega)) ?_
    refine run_bind (run_consume ha) ?_
    refine run_bind (h m (by omega)) ?_
    rfl
  | fnDecl t n o c ps ret b us rs vs ht' hn' ho hc hps hlen hret hb ih =>
    intro u rest hu hf hn
    obtain ⟨N, h1⟩ := run_args ho hc (.inr rfl) hps (app rs (app vs rest))
    obtain ⟨M, h2⟩ := ih rest
    obtain ⟨v, hv, hvk⟩ := headOf (first hb) rest
    simp only [List.cons_append, app_append, app_cons, app_nil] at h1
    refine ⟨N + M, fun m hm => ?_⟩
    flat
    refine run_bind (run_consume ht') ?_
    refine run_bind (run_consumeIdent hn') ?_
    refine run_bind (h1 m (by omega)) ?_
    rw [if_neg (by omega)]
    refine run_bind (run_return hret hv hvk) ?_
    refine run_bind (h2 m (by omega)) ?_
    rfl
  | opDecl op t n o c ps ret b us rs vs ht' hn' ho hc hps hret hb ih =>
    intro u rest hu hf hn
    obtain ⟨N, h1⟩ := run_args ho hc (.inr rfl) hps (app rs (app vs rest))
    obtain ⟨M, h2⟩ := ih rest
    obtain ⟨v, hv, hvk⟩ := headOf (first hb) rest
    simp only [List.cons_append, app_append, app_cons, app_nil] at h1
    refine ⟨N + M, fun m hm => ?_⟩
    flat
    refine run_bind (run_consume ht') ?_
    refine run_bind (a := n) (mid := .ok o :: app us (.ok c :: app rs (app vs rest))) rfl ?_
    rw [overloadedOp_some.2 hn']
    dsimp only
    refine run_bind (h1 m (by omega)) ?_
    refine run_bind (run_return hret hv hvk) ?_
    refine run_bind (h2 m (by omega)) ?_
    rfl
  | classDecl t n o c es us ht' hn' ho hc hw ih =>
    intro u rest hu hf hn
    obtain ⟨N, h⟩ := ih c (.ok c :: rest) rfl hc
    refine ⟨N, fun m hm => ?_⟩
    flat
    refine run_bind (run_consume ht') ?_
    refine run_bind (run_consumeIdent hn') ?_
    refine run_bind (a := none) (mid := .ok o :: app us (.ok c :: rest)) ?_ ?_
    · refine run_bind (run_peek (t := o) rfl) ?_
      rw [if_neg (by rw [ho]; decide)]
      rfl
    refine run_bind (run_consume ho) ?_
    refine run_bind (h m m hm hm) ?_
    refine run_bind (run_consume hc) ?_
    rfl
  | subclassDecl t n d o c b l f es vs us ht' hn' hd ho hc hb hfb hw ihb ih =>
    intro u rest hu hf hn
    obtain ⟨N, h⟩ := ih c (.ok c :: rest) rfl hc
    obtain ⟨M, h'⟩ := ihb.whole hb (t := o) (rest := .ok o :: app us (.ok c :: rest)) rfl (by isfree ho)
      (by rw [ho]; exact hfb) (by rw [ho]; rfl)
    refine ⟨N + M, fun m hm => ?_⟩
    flat
    refine run_bind (run_consume ht') ?_
    refine run_bind (run_consumeIdent hn') ?_
    refine run_bind (a := some b) (mid := .ok o :: app us (.ok c :: rest)) ?_ ?_
    · refine run_bind (run_peek (t := d) rfl) ?_
      rw [if_pos hd]
      refine run_bind (run_consume hd) ?_
      exact run_map (h' m (by omega))
    refine run_bind (run_consume ho) ?_
    refine run_bind (h m m (by omega) (by omega)) ?_
    refine run_bind (run_consume hc) ?_
    rfl
  | membersNil =>
    intro t rest ht hk
    refine ⟨1, fun m k _ hk' => ?_⟩
    obtain ⟨k, rfl⟩ : ∃ j, k = j + 1 := ⟨k - 1, by omega⟩
    refine run_bind (run_peek ht) ?_
    rw [hk]
    rfl
  | membersCons q e es us vs hq hw hes ihe ihes =>
    intro t rest ht hk
    obtain ⟨N, h⟩ := ihes t rest ht hk
    have : ∃ v, Head v (app vs rest) ∧ Free v.kind := by
      rcases first hes with ⟨-, rfl⟩ | h'
      · exact ⟨t, ht, by isfree hk⟩
      · obtain ⟨v, hv, hvk⟩ := headOf h' rest
        refine ⟨v, hv, ?_⟩
        rcases hvk with e | e <;> isfree e
    obtain ⟨v, hv, hvf⟩ := this
    obtain ⟨M, h'⟩ := ihe v (app vs rest) hv hvf trivial
    refine ⟨N + M + 1, fun m k hm hk' => ?_⟩
    obtain ⟨k, rfl⟩ : ∃ j, k = j + 1 := ⟨k - 1, by omega⟩
    flat
    obtain ⟨w, hw', hwk, -⟩ := headOf (first hw) (app vs rest)
    refine run_bind (run_peek hw') ?_
    rcases hq with rfl | rfl
    · rw [hwk]
      dsimp only
      refine run_bind (h' m (by omega)) ?_
      refine run_bind (h m k (by omega) (by omega)) ?_
      rfl
    · rw [hwk]
      dsimp only
      refine run_bind (h' m (by omega)) ?_
      refine run_bind (h m k (by omega) (by omega)) ?_
      rfl
  | exprStmt e l f us hw ih =>
    intro t rest ht hf hn
    obtain ⟨N, h⟩ := ih.whole hw ht hf hn.1 hn.2
    refine ⟨N, fun m hm => ?_⟩
    obtain ⟨v, hv, hvk⟩ := headOf (first hw) rest
    refine run_bind (run_peek hv) ?_
    have := h m hm
    revert hvk this
    generalize v.kind = k
    intro hvk this
    cases k <;> first | exact this | exact absurd hvk (by decide)
  | declStmt k e f us hw ih =>
    intro t rest ht hf hn
    obtain ⟨N, h⟩ := ih t rest ht hf hn
    refine ⟨N, fun m hm => ?_⟩
    obtain ⟨v, hv, hvk, hk⟩ := headOf (first hw) rest
    refine run_bind (run_peek hv) ?_
    rw [hvk]
    have := h m hm
    revert hk this
    clear hvk ih h hw
    intro hk this
    cases k <;> first | exact this | exact absurd hk (by decide)
  | «export» t k e f us ht' hk hw ih =>
    intro u rest hu hf hn
    obtain ⟨N, h⟩ := ih u rest hu hf hn
    refine ⟨N, fun m hm => ?_⟩
    flat
    refine run_bind (run_peek (t := t) rfl) ?_
    rw [ht']
    refine run_bind (run_consume ht') ?_
    refine run_bind (a := e) (mid := rest) ?_ rfl
    obtain ⟨v, hv, hvk, -⟩ := headOf (first hw) rest
    refine run_bind (run_peek hv) ?_
    rw [hvk]
    rcases hk with rfl | rfl | rfl <;> exact h m hm
  | «import» t o p m ns ms is ht' ho hp hm hi hne =>
    intro u rest hu hf hn
    obtain ⟨N, h⟩ := run_importDecl ht' ho hp hm hi hne rest
    refine ⟨N, fun m hm => ?_⟩
    refine run_bind (run_peek (t := t) rfl) ?_
    rw [ht']
    exact h m hm
  | loop t b us ht' hw ih =>
    intro u rest hu hf hn
    obtain ⟨N, h⟩ := ih rest
    refine ⟨N, fun m hm => ?_⟩
    refine run_bind (run_peek (t := t) rfl) ?_
    rw [ht']
    refine run_bind (run_consume ht') ?_
    refine run_bind (h m hm) ?_
    rfl
  | whileLoop t c b l f us vs ht' hc hfc hb ihc ihb =>
    intro u rest hu hf hn
    obtain ⟨v, hv, hvk⟩ := headOf (first hb) rest
    obtain ⟨N, h⟩ := ihc.whole hc hv (by isfree hvk) (by rw [hvk]; exact hfc) (by rw [hvk]; rfl)
    obtain ⟨M, h'⟩ := ihb rest
    refine ⟨N + M, fun m hm => ?_⟩
    flat
    refine run_bind (run_peek (t := t) rfl) ?_
    rw [ht']
    refine run_bind (run_consume ht') ?_
    refine run_bind (h m (by omega)) ?_
    refine run_bind (h' m (by omega)) ?_
    rfl
  | forLoop t n i c b l f us vs ht' hn' hi hc hfc hb ihc ihb =>
    intro u rest hu hf hn
    obtain ⟨v, hv, hvk⟩ := headOf (first hb) rest
    obtain ⟨N, h⟩ := ihc.whole hc hv (by isfree hvk) (by rw [hvk]; exact hfc) (by rw [hvk]; rfl)
    obtain ⟨M, h'⟩ := ihb rest
    refine ⟨N + M, fun m hm => ?_⟩
    flat
    refine run_bind (run_peek (t := t) rfl) ?_
    rw [ht']
    refine run_bind (run_consume ht') ?_
    refine run_bind (run_consumeIdent hn') ?_
    refine run_bind (run_consume hi) ?_
    refine run_bind (h m (by omega)) ?_
    refine run_bind (h' m (by omega)) ?_
    rfl
  | break_ t ht' =>
    intro u rest hu hf hn
    refine ⟨0, fun m hm => ?_⟩
    refine run_bind (run_peek (t := t) rfl) ?_
    rw [ht']
    refine run_bind (a := t) (mid := rest) rfl ?_
    rw [ht']
    rfl
  | continue_ t ht' =>
    intro u rest hu hf hn
    refine ⟨0, fun m hm => ?_⟩
    refine run_bind (run_peek (t := t) rfl) ?_
    rw [ht']
    refine run_bind (a := t) (mid := rest) rfl ?_
    rw [ht']
    rfl
  | returnUnit t ht' =>
    intro u rest hu hf hn
    refine ⟨0, fun m hm => ?_⟩
    refine run_bind (run_peek (t := t) rfl) ?_
    rw [ht']
    refine run_bind (a := t) (mid := rest) rfl ?_
    rw [ht']
    dsimp only
    refine run_bind (run_peek hu) ?_
    rw [if_neg (by simpa using hn)]
    rfl
  | return_ t e l f us ht' hw ih =>
    intro u rest hu hf hn
    obtain ⟨N, h⟩ := ih.whole hw hu hf hn.1 hn.2
    refine ⟨N, fun m hm => ?_⟩
    flat
    refine run_bind (run_peek (t := t) rfl) ?_
    rw [ht']
    refine run_bind (a := t) (mid := app us rest) rfl ?_
    rw [ht']
    dsimp only
    obtain ⟨v, hv, hvk⟩ := headOf (first hw) rest
    refine run_bind (run_peek hv) ?_
    rw [if_pos (by rintro e; rw [e] at hvk; revert hvk; decide)]
    refine run_bind (h m hm) ?_
    rfl
  | seqNil =>
    intro t rest ht he hn
    refine ⟨1, fun m k _ hk' => ?_⟩
    obtain ⟨k, rfl⟩ : ∃ j, k = j + 1 := ⟨k - 1, by omega⟩
    refine run_bind (run_peek ht) ?_
    rw [if_pos he]
    rfl
  | seqLast e f us hw ih =>
    intro t rest ht he hn
    obtain ⟨N, h⟩ := ih t rest ht (free_of_ends he) hn
    refine ⟨N + 1, fun m k hm hk' => ?_⟩
    obtain ⟨k, rfl⟩ : ∃ j, k = j + 1 := ⟨k - 1, by omega⟩
    obtain ⟨v, hv, hvk⟩ := headOf (first hw) rest
    refine run_bind (run_peek hv) ?_
    rw [if_neg (by rw [stmt_not_ends hvk]; decide)]
    refine run_bind (h m (by omega)) ?_
    refine run_bind (run_peek ht) ?_
    rw [if_pos he]
    rfl
  | seqCons e f es g us w vs hw hfw hes ih ihes =>
    intro t rest ht he hn
    have hwk : w.kind ∈ stmtStarts := by
      rcases first hes with ⟨-, h⟩ | ⟨_, _, h, hk⟩
      · cases h
      · cases h; exact hk
    obtain ⟨N, h⟩ := ih w (app (w :: vs) rest) rfl (free_of_stmt hwk) hfw
    obtain ⟨M, h'⟩ := ihes t rest ht he hn
    refine ⟨N + M + 1, fun m k hm hk' => ?_⟩
    obtain ⟨k, rfl⟩ : ∃ j, k = j + 1 := ⟨k - 1, by omega⟩
    obtain ⟨v, hv, hvk⟩ := headOf (first hw) (app (w :: vs) rest)
    rw [app_append]
    refine run_bind (run_peek hv) ?_
    rw [if_neg (by rw [stmt_not_ends hvk]; decide)]
    refine run_bind (h m (by omega)) ?_
    refine run_bind (run_peek (t := w) rfl) ?_
    rw [if_neg (by rw [stmt_not_ends hwk]; decide)]
    refine run_bind (h' m k (by omega) (by omega)) ?_
    cases es with
    | nil => cases hes
    | cons e' es => rfl
  | seqExport w n es g us hw hn' hes ih =>
    intro t rest ht he hn
    obtain ⟨M, h'⟩ := ih t rest ht he hn
    refine ⟨M + 1, fun m k hm hk' => ?_⟩
    obtain ⟨k, rfl⟩ : ∃ j, k = j + 1 := ⟨k - 1, by omega⟩
    rw [app_cons]
    refine run_bind (run_peek (t := w) rfl) ?_
    rw [if_neg (by rw [hw]; decide)]
    refine run_bind (a := .exportDecl (.ident n.text)) (mid := app (n :: us) rest) ?_ ?_
    · refine run_bind (run_peek (t := w) rfl) ?_
      rw [hw]
      refine run_bind (run_consume hw) ?_
      refine run_bind (a := .ident n.text) (mid := app (n :: us) rest) ?_ rfl
      refine run_bind (run_peek (t := n) rfl) ?_
      rw [hn']
      rfl
    refine run_bind (run_peek (t := n) rfl) ?_
    rw [if_neg (by rw [hn']; decide)]
    refine run_bind (h' m k (by omega) (by omega)) ?_
    cases es with
    | nil => cases hes
    | cons e' es => rfl

/-! ## A larger bound does not change the answer -/

/-- `q` answers what `p` answers, unless `p` reaches its bound. -/
def Le {α : Type} (p q : P α) : Prop := ∀ ts, p ts = .error .fuel ∨ q ts = p ts

theorem Le.refl {α : Type} (p : P α) : Le p p := fun _ => .inr rfl

theorem Le.trans {α : Type} {p q s : P α} (h : Le p q) (h' : Le q s) : Le p s := by
  intro ts
  rcases h ts with e | e
  · exact .inl e
  · rcases h' ts with e' | e'
    · exact .inl (e ▸ e')
    · exact .inr (e'.trans e)

theorem Le.bind {α β : Type} {p q : P α} {f g : α → P β} (h : Le p q) (h' : ∀ a, Le (f a) (g a)) :
    Le (p >>= f) (q >>= g) := by
  intro ts
  show P.bind p f ts = _ ∨ P.bind q g ts = P.bind p f ts
  unfold P.bind
  rcases h ts with e | e
  · rw [e]; exact .inl rfl
  · rw [e]
    cases p ts with
    | error x => exact .inr rfl
    | ok x => exact h' x.1 x.2

theorem Le.map {α β : Type} {p q : P α} {f : α → β} (h : Le p q) : Le (f <$> p) (f <$> q) :=
  Le.bind (f := fun a => pure (f a)) h fun _ => .refl _

theorem Le.fuel {α : Type} {q : P α} : Le P.outOfFuel q := fun _ => .inl rfl

/-- Field by field. -/
structure LeRec (r s : Rec) : Prop where
  prec : ∀ p, Le (r.prec p) (s.prec p)
  sequence : Le r.sequence s.sequence
  ifExpr : Le r.ifExpr s.ifExpr

theorem LeRec.expr {r s : Rec} (h : LeRec r s) : Le r.expr s.expr := h.prec .assignment

theorem le_ite {α : Type} {c : Prop} [Decidable c] {p q p' q' : P α} (h : Le p p') (h' : Le q q') :
    Le (if c then p else q) (if c then p' else q') := by
  by_cases hc : c
  · rw [if_pos hc, if_pos hc]; exact h
  · rw [if_neg hc, if_neg hc]; exact h'

macro "mono" : tactic => `(tactic|
  repeat' first
    | assumption
    | exact Le.refl _
    | exact LeRec.expr (by assumption)
    | exact LeRec.prec (by assumption) _
    | exact LeRec.sequence (by assumption)
    | exact LeRec.ifExpr (by assumption)
    | apply_assumption
    | refine Le.bind ?_ fun _ => ?_
    | apply Le.map
    | apply le_ite
    | split)

theorem le_argsLoop (close : Kind) : ∀ n, Le (argsLoop n close) (argsLoop (n + 1) close)
  | 0 => .fuel
  | n + 1 => by
    have := le_argsLoop close n
    unfold argsLoop
    mono

theorem le_args (n : Nat) (o c : Kind) : Le (parseArgs n o c) (parseArgs (n + 1) o c) := by
  have := le_argsLoop c n
  unfold parseArgs
  mono

theorem le_fieldsLoop (close : Kind) : ∀ n, Le (fieldsLoop n close) (fieldsLoop (n + 1) close)
  | 0 => .fuel
  | n + 1 => by
    have := le_fieldsLoop close n
    unfold fieldsLoop
    mono

theorem le_fields (n : Nat) (o c : Kind) : Le (parseFields n o c) (parseFields (n + 1) o c) := by
  have := le_fieldsLoop c n
  unfold parseFields
  mono

theorem le_importDecl (n : Nat) : Le (importDecl n) (importDecl (n + 1)) := by
  have := le_fields n
  unfold importDecl importItems
  mono

variable {r s : Rec} (h : LeRec r s) (n : Nat)
include h

theorem le_block : Le (block r) (block s) := by
  unfold block
  mono

theorem le_ifExpression : Le (ifExpression r) (ifExpression s) := by
  have := le_block h
  unfold ifExpression elseBranch
  mono

theorem le_assignment (e : Expr) (c : Bool) : Le (parseAssignment r e c) (parseAssignment s e c) := by
  unfold parseAssignment
  mono

theorem le_varDecl : Le (varDecl n r) (varDecl (n + 1) s) := by
  have := le_fields n
  unfold varDecl varKind
  mono

theorem le_fnDecl : Le (fnDecl n r) (fnDecl (n + 1) s) := by
  have := le_args n
  have := le_block h
  unfold fnDecl
  mono

theorem le_opDecl : Le (opDecl n r) (opDecl (n + 1) s) := by
  have := le_args n
  have := le_block h
  unfold opDecl
  mono

theorem le_classLoop : ∀ k, Le (classLoop n r k) (classLoop (n + 1) s (k + 1))
  | 0 => .fuel
  | k + 1 => by
    have := le_classLoop k
    have := le_fnDecl h n
    have := le_opDecl h n
    unfold classLoop
    mono

theorem le_classDecl : Le (classDecl n r) (classDecl (n + 1) s) := by
  have := le_classLoop h n n
  unfold classDecl classBase
  mono

theorem le_statement : Le (statement n r) (statement (n + 1) s) := by
  have := le_block h
  have := le_varDecl h n
  have := le_fnDecl h n
  have := le_opDecl h n
  have := le_classDecl h n
  have := le_importDecl n
  unfold statement loopStatement whileStatement forStatement exportDecl exported controlFlow
  mono

theorem le_sequenceLoop : ∀ k, Le (sequenceLoop n r k) (sequenceLoop (n + 1) s (k + 1))
  | 0 => .fuel
  | k + 1 => by
    have := le_sequenceLoop k
    have := le_statement h n
    unfold sequenceLoop
    mono

theorem le_sequence : Le (sequence n r) (sequence (n + 1) s) := by
  have := le_sequenceLoop h n n
  unfold sequence
  mono

theorem le_itemsLoop (close : Kind) : ∀ k, Le (itemsLoop r close k) (itemsLoop s close (k + 1))
  | 0 => .fuel
  | k + 1 => by
    have := le_itemsLoop close k
    unfold itemsLoop
    mono

theorem le_objectLoop : ∀ k, Le (objectLoop r k) (objectLoop s (k + 1))
  | 0 => .fuel
  | k + 1 => by
    have := le_objectLoop k
    unfold objectLoop
    mono

theorem le_runPrefix (f : PrefixRule) (c : Bool) : Le (runPrefix n r f c) (runPrefix (n + 1) s f c) := by
  have := le_objectLoop h n
  have := fun c => le_itemsLoop h c n
  have := le_block h
  have := le_ifExpression h
  have := le_assignment h
  have := le_args n
  cases f <;> unfold runPrefix <;> dsimp only <;>
    (try unfold variable_) <;> (try unfold object) <;> (try unfold list) <;>
    (try unfold superAccess superCall) <;> (try unfold grouping) <;> (try unfold anonymousFn) <;>
    (try unfold prefixOperator) <;> mono

theorem le_runInfix (f : InfixRule) (e : Expr) (c : Bool) :
    Le (runInfix n r f e c) (runInfix (n + 1) s f e c) := by
  have := fun c => le_itemsLoop h c n
  have := le_block h
  have := le_assignment h
  cases f <;> unfold runInfix <;> dsimp only <;>
    (try unfold indexAccess) <;> (try unfold fieldAccess) <;> (try unfold fnCall) <;>
    (try unfold binaryOperator) <;> (try unfold errorCoalesce) <;> mono

theorem le_precLoop (p : Precedence) : ∀ k e, Le (precLoop n r p k e) (precLoop (n + 1) s p (k + 1) e)
  | 0, _ => .fuel
  | k + 1, e => by
    have := le_precLoop p k
    have := le_runInfix h n
    unfold precLoop
    mono

theorem le_parsePrecedence (p : Precedence) : Le (parsePrecedence n r p) (parsePrecedence (n + 1) s p) := by
  have := le_runPrefix h n
  have := le_precLoop h n p n
  unfold parsePrecedence
  mono

omit h

theorem parser_le (n : Nat) : LeRec (parser n) (parser (n + 1)) := by
  induction n with
  | zero => exact ⟨fun _ => .fuel, .fuel, .fuel⟩
  | succ n ih => exact ⟨le_parsePrecedence ih n, le_sequence ih n, le_ifExpression ih⟩

theorem sequence_le {n m : Nat} (h : n ≤ m) : Le (parser n).sequence (parser m).sequence := by
  induction h with
  | refl => exact .refl _
  | step _ ih => exact ih.trans (parser_le _).sequence

/-! ## Accepting programs -/

/-- C37 and C39: a token sequence is parsed into a tree exactly if a beginning of it writes the statements of
that tree, and the end of the input or a closing brace comes next, which may come next. -/
theorem parse_iff {ts : Input} {e : Expr} : parseTokens ts = .ok e ↔
    ∃ es us rest f t, ts = us.map .ok ++ rest ∧ Writes (.seq es f) us ∧ Head t rest ∧
      (t.kind = .endOfInput ∨ t.kind = .rightCurly) ∧ f t.kind ∧ e = blockOf es := by
  refine ⟨parse_sound, ?_⟩
  rintro ⟨es, us, rest, f, t, rfl, hw, ht, hk, hf, rfl⟩
  obtain ⟨N, h⟩ := accepts hw t rest ht (endsSequence_iff.2 hk) hf
  have h1 : ((parser (N + enough (app us rest) + 1)).sequence (app us rest)) = .ok (blockOf es, rest) :=
    run_bind (h _ _ (by omega) (by omega)) rfl
  have h2 := (parser_ends (enough (app us rest))).sequence (app us rest) (Nat.le_refl _)
  rcases sequence_le (n := enough (app us rest)) (m := N + enough (app us rest) + 1) (by omega)
    (app us rest) with e | e
  · unfold Res at h2
    rw [e] at h2
    exact h2.elim
  · show ((parser (enough (app us rest))).sequence (app us rest)).map (·.1) = _
    rw [← e, h1]
    rfl

/-- C37: the grammar is unambiguous. -/
theorem program_unique {e e' : Expr} {us : List Token} (h : Program e us) (h' : Program e' us) : e = e' := by
  have key : ∀ {e}, Program e us → parseTokens (us.map .ok) = .ok e := by
    rintro e ⟨es, f, hw, hf, rfl⟩
    exact parse_iff.2 ⟨es, us, [], f, eoi, by simp, hw, rfl, .inl rfl, hf, rfl⟩
  have := (key h).symm.trans (key h')
  cases this
  rfl

/-- The names `a b` make two statements, and a closing brace may follow. -/
example : Parser.parseTokens [.ok ⟨.identifier, "a"⟩, .ok ⟨.identifier, "b"⟩, .ok ⟨.rightCurly, "}"⟩] =
    .ok (.block [.ident "a"] (some (.ident "b"))) := by kernel_rfl

end Dice.Parser
