import Verif.ParseComplete
import Verif.LexPrint

/-!
# Writing expressions with few parentheses

C37: an expression tree, written with parentheses only around operands whose operator binds too loosely, is
parsed back.
-/

namespace Dice.Grammar

/-- Expressions made of operators; `leaf` stands for an expression that is not, given with its tokens. -/
inductive Tree where
  | leaf (us : List Token) (e : Expr)
  | unary (op : UnaryOp) (a : Tree)
  | binary (op : BinaryOp) (a b : Tree)
  | «is» (a : Tree) (name : String) (nullable : Bool)
  | nullProp (a : Tree)
  | errProp (a : Tree)
  | field (a : Tree) (name : String)
  | index (a b : Tree)
  | call (a : Tree) (n : Nat) (args : Fin n → Tree)
  | list (n : Nat) (elems : Fin n → Tree)
  | assignName (op : AssignOp) (name : String) (b : Tree)
  | assignField (op : AssignOp) (a : Tree) (name : String) (b : Tree)
  | assignIndex (op : AssignOp) (a i b : Tree)
  | fn (params : List String) (b : Tree)

/-- The syntax tree. -/
def Tree.expr : Tree → Expr
  | .leaf _ e => e
  | .unary op a => .unary op a.expr
  | .binary op a b => .binary op a.expr b.expr
  | .is a n q => .is a.expr ⟨n, q⟩
  | .nullProp a => .nullProp a.expr
  | .errProp a => .errProp a.expr
  | .field a n => .field a.expr n
  | .index a b => .index a.expr b.expr
  | .call a _ args => .call a.expr (List.ofFn fun i => (args i).expr)
  | .list _ elems => .list (List.ofFn fun i => (elems i).expr)
  | .assignName op n b => .assign op (.ident n) b.expr
  | .assignField op a n b => .assign op (.field a.expr n) b.expr
  | .assignIndex op a i b => .assign op (.index a.expr i.expr) b.expr
  | .fn ps b => .anonFn (ps.map fun p => ⟨p, none⟩) none b.expr

/-- How the tokens of operators are spelled. -/
def spelling : Kind → String
  | .leftParen => "(" | .rightParen => ")" | .leftSquare => "[" | .rightSquare => "]" | .comma => ","
  | .pipe => "|" | .rangeExclusive => ".." | .rangeInclusive => "..=" | .dot => "." | .questionMark => "?"
  | .errorPropagate => "!!" | .coalesce => "??" | .minus => "-" | .plus => "+" | .remainder => "%"
  | .star => "*" | .slash => "/" | .not => "!" | .notEqual => "!=" | .equal => "==" | .greater => ">"
  | .greaterEqual => ">=" | .less => "<" | .lessEqual => "<=" | .assign => "=" | .mulAssign => "*="
  | .divAssign => "/=" | .addAssign => "+=" | .subAssign => "-=" | .lazyAnd => "&&" | .pipeline => "|>"
  | .is => "is"
  | _ => ""

/-- The token of that kind. -/
def tok (k : Kind) : Token := ⟨k, spelling k⟩

/-- The token of a name. -/
def nameTok (n : String) : Token := ⟨.identifier, n⟩

/-- The precedence table: how tightly the operator of a tree holds it together. -/
def Tree.level : Tree → Nat
  | .leaf _ _ | .list _ _ => 12
  | .nullProp _ | .errProp _ | .field _ _ | .index _ _ | .call _ _ _ => 11
  | .unary _ _ => 10
  | .binary op _ _ =>
    match op with
    | .multiply | .divide | .remainder => 9
    | .add | .subtract => 8
    | .equals | .notEquals | .greaterThan | .greaterThanEquals | .lessThan | .lessThanEquals => 7
    | .logicalAnd => 6
    | .logicalOr => 5
    | .rangeExclusive | .rangeInclusive => 4
    | .coalesce => 3
    | .pipeline => 2
  | .is _ _ _ => 7
  | .assignName _ _ _ | .assignField _ _ _ _ | .assignIndex _ _ _ _ | .fn _ _ => 1

/-- Parentheses around `us` when the level is below the required one. -/
def wrap (have_ need : Nat) (us : List Token) : List Token :=
  if have_ < need then tok .leftParen :: us ++ [tok .rightParen] else us

/-- The tokens of the names of parameters. -/
def paramTokens : List String → List Token
  | [] => []
  | [p] => [nameTok p]
  | p :: ps => nameTok p :: tok .comma :: paramTokens ps

/-- Tokens separated by commas. -/
def commas : List (List Token) → List Token
  | [] => []
  | [us] => us
  | us :: vs => us ++ tok .comma :: commas vs

/-- The tokens of a tree.  The left operand of a binary operator needs the level of the operator, and the
right one a higher level, so operators of equal level group to the left. -/
def Tree.tokens : Tree → List Token
  | .leaf us _ => us
  | .unary op a => tok (unaryKind op) :: wrap a.level 10 a.tokens
  | .binary op a b =>
    wrap a.level (Grammar.level op) a.tokens ++ (opKind op :: opRest op).map tok ++
      wrap b.level (Grammar.level op + 1) b.tokens
  | .is a n q =>
    wrap a.level 7 a.tokens ++ tok .is :: nameTok n :: (if q then [tok .questionMark] else [])
  | .nullProp a => wrap a.level 11 a.tokens ++ [tok .questionMark]
  | .errProp a => wrap a.level 11 a.tokens ++ [tok .errorPropagate]
  | .field a n => wrap a.level 11 a.tokens ++ [tok .dot, nameTok n]
  | .index a b => wrap a.level 11 a.tokens ++ tok .leftSquare :: b.tokens ++ [tok .rightSquare]
  | .call a _ args =>
    wrap a.level 11 a.tokens ++ tok .leftParen :: commas (List.ofFn fun i => (args i).tokens) ++ [tok .rightParen]
  | .list _ elems => tok .leftSquare :: commas (List.ofFn fun i => (elems i).tokens) ++ [tok .rightSquare]
  | .assignName op n b => nameTok n :: tok (assignKind op) :: b.tokens
  | .assignField op a n b =>
    wrap a.level 11 a.tokens ++ tok .dot :: nameTok n :: tok (assignKind op) :: b.tokens
  | .assignIndex op a i b =>
    wrap a.level 11 a.tokens ++ tok .leftSquare :: i.tokens ++ tok .rightSquare :: tok (assignKind op) :: b.tokens
  | .fn ps b => tok .pipe :: paramTokens ps ++ tok .pipe :: b.tokens

/-- Every leaf is written by its tokens whatever comes next, and no function has too many parameters. -/
def Tree.Ok : Tree → Prop
  | .leaf us e => Writes (.expr e closedLevel any) us
  | .unary _ a | .is a _ _ | .nullProp a | .errProp a | .field a _ | .assignName _ _ a => a.Ok
  | .binary _ a b | .index a b | .assignField _ a _ b => a.Ok ∧ b.Ok
  | .assignIndex _ a i b => a.Ok ∧ i.Ok ∧ b.Ok
  | .call a _ args => a.Ok ∧ ∀ i, (args i).Ok
  | .list _ elems => ∀ i, (elems i).Ok
  | .fn ps b => ps.length ≤ 255 ∧ b.Ok

/-- The tokens write the expression, which holds together at this level, before any token that does not bind
more tightly. -/
def Good (n : Nat) (e : Expr) (us : List Token) : Prop :=
  ∃ l f, Writes (.expr e l f) us ∧ n ≤ l ∧ ∀ k, binds k ≤ n ∨ 11 ≤ n → f k

theorem Good.wrap {n m : Nat} {e : Expr} {us : List Token} (h : Good n e us) (hm : m ≤ 11) :
    Good m e (wrap n m us) := by
  obtain ⟨l, f, hw, hl, hf⟩ := h
  unfold Grammar.wrap
  by_cases c : n < m
  · rw [if_pos c]
    exact ⟨_, _, .group _ _ e l f us rfl rfl hw (hf _ (.inl (Nat.zero_le _))), by unfold closedLevel; omega,
      fun _ _ => trivial⟩
  · rw [if_neg c]
    refine ⟨l, f, hw, by omega, fun k hk => hf k ?_⟩
    omega

theorem writes_params (ps : List String) : Params (ps.map fun p => ⟨p, none⟩) (paramTokens ps) := by
  match ps with
  | [] => exact .nil
  | [p] => exact .last _ _ (.untyped (nameTok p) rfl)
  | p :: q :: ps =>
    exact .cons _ _ (tok .comma) [nameTok p] _ (.untyped (nameTok p) rfl) rfl (writes_params (q :: ps))

theorem level_op (op : BinaryOp) (a b : Tree) : (Tree.binary op a b).level = level op := by
  cases op <;> rfl

theorem level_le (op : BinaryOp) : 2 ≤ level op ∧ level op ≤ 9 := by cases op <;> decide

theorem binds_unary (k : Kind) : binds k ≠ 10 := by cases k <;> decide

theorem Good.closed {n : Nat} {e : Expr} {us : List Token} (h : Good n e us) :
    ∃ l f, Writes (.expr e l f) us ∧ ∀ k, binds k = 0 → f k := by
  obtain ⟨l, f, hw, -, hf⟩ := h
  exact ⟨l, f, hw, fun k hk => hf k (.inl (by omega))⟩

theorem writes_commas (close : Kind) (hc : binds close = 0) : ∀ ps : List (Expr × List Token),
    (∀ p ∈ ps, ∃ l f, Writes (.expr p.1 l f) p.2 ∧ ∀ k, binds k = 0 → f k) →
    Writes (.items close (ps.map (·.1))) (commas (ps.map (·.2)))
  | [], _ => .itemsNil _
  | [p], h => by
    obtain ⟨l, f, hw, hf⟩ := h p List.mem_cons_self
    exact .itemsLast _ _ l f _ hw (hf _ hc)
  | p :: q :: ps, h => by
    obtain ⟨l, f, hw, hf⟩ := h p List.mem_cons_self
    exact .itemsCons _ (tok .comma) _ l f _ _ _ rfl hw (hf _ rfl)
      (writes_commas close hc (q :: ps) fun x hx => h x (List.mem_cons_of_mem _ hx))

theorem writes_items {n : Nat} (close : Kind) (e : Fin n → Expr) (us : Fin n → List Token)
    (h : ∀ i, ∃ l f, Writes (.expr (e i) l f) (us i) ∧ ∀ k, binds k = 0 → f k)
    (hc : binds close = 0 := by rfl) :
    Writes (.items close (List.ofFn e)) (commas (List.ofFn us)) := by
  have := writes_commas close hc (List.ofFn fun i => (e i, us i)) (by
    intro p hp
    obtain ⟨i, rfl⟩ := List.mem_ofFn.1 hp
    exact h i)
  simpa [List.map_ofFn, Function.comp_def] using this

theorem good (t : Tree) (h : t.Ok) : Good t.level t.expr t.tokens := by
  induction t with
  | leaf us e => exact ⟨_, _, h, by simp [Tree.level, closedLevel], fun _ _ => trivial⟩
  | unary op a ih =>
    obtain ⟨l, f, hw, hl, hf⟩ := (ih h).wrap (m := 10) (by decide)
    refine ⟨_, _, .unary op (tok (unaryKind op)) a.expr l f _ rfl hw hl, by simp [Tree.level, closedLevel], fun k hk => ?_⟩
    have := binds_unary k
    simp only [Tree.level] at hk
    exact ⟨hf k (by omega), by unfold unaryLevel; omega⟩
  | binary op a b iha ihb =>
    have hop := level_le op
    obtain ⟨l, f, hw, hl, hf⟩ := (iha h.1).wrap (m := level op) (by omega)
    obtain ⟨m, g, hw', hm, hg⟩ := (ihb h.2).wrap (m := level op + 1) (by omega)
    rw [level_op]
    refine ⟨_, _, .binary op (tok (opKind op)) ((opRest op).map tok) a.expr b.expr l m f g _ _ rfl
        (by cases op <;> rfl) hw (hf _ (.inl (Nat.le_refl _))) hw' hm, by omega, fun k hk => ?_⟩
    exact ⟨hg k (by omega), by omega⟩
  | «is» a n q ih =>
    obtain ⟨l, f, hw, hl, hf⟩ := (ih h).wrap (m := 7) (by decide)
    cases q with
    | false =>
      refine ⟨_, _, .isType (tok .is) (nameTok n) a.expr l f _ rfl rfl hw (hf _ (.inl (by decide))), ?_, ?_⟩
      · simp only [Tree.level, binds]; omega
      · rintro k hk rfl
        simp [Tree.level, binds] at hk
    | true =>
      refine ⟨_, _, .isNullable (tok .is) (nameTok n) (tok .questionMark) a.expr l f _ rfl rfl rfl hw
        (hf _ (.inl (by decide))), ?_, fun _ _ => trivial⟩
      simp only [Tree.level, binds]; omega
  | nullProp a ih =>
    obtain ⟨l, f, hw, hl, hf⟩ := (ih h).wrap (m := 11) (by decide)
    exact ⟨_, _, .nullProp (tok .questionMark) a.expr l f _ rfl hw (hf _ (.inr (by decide))),
      by simp only [Tree.level, binds]; omega, fun _ _ => trivial⟩
  | errProp a ih =>
    obtain ⟨l, f, hw, hl, hf⟩ := (ih h).wrap (m := 11) (by decide)
    exact ⟨_, _, .errProp (tok .errorPropagate) a.expr l f _ rfl hw (hf _ (.inr (by decide))),
      by simp only [Tree.level, binds]; omega, fun _ _ => trivial⟩
  | field a n ih =>
    obtain ⟨l, f, hw, hl, hf⟩ := (ih h).wrap (m := 11) (by decide)
    exact ⟨_, _, .field (tok .dot) (nameTok n) a.expr l f _ rfl rfl hw (hf _ (.inr (by decide))),
      by simp only [Tree.level, binds]; omega, fun _ _ => trivial⟩
  | index a b iha ihb =>
    obtain ⟨l, f, hw, hl, hf⟩ := (iha h.1).wrap (m := 11) (by decide)
    obtain ⟨m, g, hw', -, hg⟩ := ihb h.2
    exact ⟨_, _, .index (tok .leftSquare) (tok .rightSquare) a.expr b.expr l m f g _ _ rfl rfl hw
      (hf _ (.inr (by decide))) hw' (hg _ (.inl (Nat.zero_le _))),
      by simp only [Tree.level, binds]; omega, fun _ _ => trivial⟩
  | call a n args iha ih =>
    obtain ⟨l, f, hw, hl, hf⟩ := (iha h.1).wrap (m := 11) (by decide)
    exact ⟨_, _, .call (tok .leftParen) (tok .rightParen) a.expr l f _ _ _ rfl rfl hw
      (hf _ (.inr (by decide))) (writes_items _ _ _ fun i => (ih i (h.2 i)).closed),
      by simp only [Tree.level, binds]; omega, fun _ _ => trivial⟩
  | list n elems ih =>
    exact ⟨_, _, .list (tok .leftSquare) (tok .rightSquare) _ _ rfl rfl
      (writes_items _ _ _ fun i => (ih i (h i)).closed), by simp [Tree.level, closedLevel], fun _ _ => trivial⟩
  | assignName op n b ih =>
    obtain ⟨m, g, hw, -, hg⟩ := ih h
    refine ⟨_, _, .assignIdent op (nameTok n) (tok (assignKind op)) b.expr m g _ rfl rfl hw, Nat.le_refl _, ?_⟩
    intro k hk
    simp only [Tree.level] at hk
    have : binds k ≠ 1 := by cases k <;> decide
    exact ⟨hg k (.inl (by omega)), by omega⟩
  | assignField op a n b iha ihb =>
    obtain ⟨l, f, hw, hl, hf⟩ := (iha h.1).wrap (m := 11) (by decide)
    obtain ⟨m, g, hw', -, hg⟩ := ihb h.2
    refine ⟨_, _, .assignField op (tok .dot) (nameTok n) (tok (assignKind op)) a.expr b.expr l m f g _ _ rfl rfl
      rfl hw (hf _ (.inr (by decide))) hw', Nat.le_refl _, ?_⟩
    intro k hk
    simp only [Tree.level] at hk
    have : binds k ≠ 1 := by cases k <;> decide
    exact ⟨hg k (.inl (by omega)), by omega⟩
  | assignIndex op a i b iha ihi ihb =>
    obtain ⟨l, f, hw, hl, hf⟩ := (iha h.1).wrap (m := 11) (by decide)
    obtain ⟨j, h', hw'', -, hh⟩ := ihi h.2.1
    obtain ⟨m, g, hw', -, hg⟩ := ihb h.2.2
    refine ⟨_, _, .assignIndex op (tok .leftSquare) (tok .rightSquare) (tok (assignKind op)) a.expr i.expr b.expr
      l j m f h' g _ _ _ rfl rfl rfl hw (hf _ (.inr (by decide))) hw'' (hh _ (.inl (Nat.zero_le _))) hw',
      Nat.le_refl _, ?_⟩
    intro k hk
    simp only [Tree.level] at hk
    have : binds k ≠ 1 := by cases k <;> decide
    exact ⟨hg k (.inl (by omega)), by omega⟩
  | fn ps b ih =>
    obtain ⟨m, g, hw, -, hg⟩ := ih h.2
    refine ⟨_, _, .anonFn (tok .pipe) (tok .pipe) _ _ b.expr m g _ rfl rfl (writes_params ps) ?_ hw,
      by simp [Tree.level, closedLevel], ?_⟩
    · simpa using h.1
    intro k hk
    simp only [Tree.level] at hk
    have : binds k ≠ 1 := by cases k <;> decide
    exact ⟨hg k (.inl (by omega)), by omega⟩

/-- C37: an expression written with parentheses only where the precedence table requires them is parsed back. -/
theorem print_parse (t : Tree) (h : t.Ok) :
    Parser.parseTokens (t.tokens.map .ok) = .ok (.block [] (some t.expr)) := by
  obtain ⟨l, f, hw, -, hf⟩ := good t h
  exact Parser.parse_iff.2 ⟨[t.expr], t.tokens, [], _, Parser.eoi, by simp, .seqLast _ _ _ (.exprStmt _ l f _ hw),
    rfl, .inl rfl, ⟨hf _ (.inl (Nat.zero_le _)), rfl⟩, rfl⟩

/-- C37 and C41: a source that spells the tokens of a program is parsed into that program. -/
theorem parse_program {e : Expr} {us : List Token} {source : String} (h : Program e us)
    (hs : Spells us source.toList) : Parser.parseSource source = .ok e := by
  obtain ⟨es, f, hw, hf, rfl⟩ := h
  unfold Parser.parseSource
  rw [lex_spells hs]
  exact Parser.parse_iff.2 ⟨es, us, [], f, Parser.eoi, by simp, hw, rfl, .inl rfl, hf, rfl⟩

/-- C37: the same for source texts. -/
theorem print_parse_source (t : Tree) (h : t.Ok) {source : String} (hs : Spells t.tokens source.toList) :
    Parser.parseSource source = .ok (.block [] (some t.expr)) := by
  unfold Parser.parseSource
  rw [lex_spells hs]
  exact print_parse t h

/-! ## Source texts -/

/-- A word that can be a name. -/
def IsName (s : String) : Prop :=
  ∃ c cs, s.toList = c :: cs ∧ isIdentStart c = true ∧ (∀ d ∈ cs, isIdentChar d = true) ∧
    ∀ k ∈ keywords, k.1 ≠ s

/-- The names of a tree are names, and its leaves are made of tokens that can be spelled. -/
def Tree.Named : Tree → Prop
  | .leaf us _ => ∀ u ∈ us, Spelled u
  | .unary _ a | .nullProp a | .errProp a => a.Named
  | .is a n _ | .field a n | .assignName _ n a => IsName n ∧ a.Named
  | .assignField _ a n b => IsName n ∧ a.Named ∧ b.Named
  | .binary _ a b | .index a b => a.Named ∧ b.Named
  | .assignIndex _ a i b => a.Named ∧ i.Named ∧ b.Named
  | .call a _ args => a.Named ∧ ∀ i, (args i).Named
  | .list _ elems => ∀ i, (elems i).Named
  | .fn ps b => (∀ p ∈ ps, IsName p) ∧ b.Named

/-- The text of a tree: its tokens with a space after each. -/
def Tree.text (t : Tree) : String := String.ofList (spaced t.tokens)

theorem name_spelled {n : String} (h : IsName n) : Spelled (nameTok n) := by
  obtain ⟨c, cs, h1, h2, h3, h4⟩ := h
  exact .name n c cs h1 h2 h3 h4

theorem kinds_spelled : ∀ k ∈ [Kind.leftParen, .rightParen, .leftSquare, .rightSquare, .comma, .pipe,
    .rangeExclusive, .rangeInclusive, .dot, .questionMark, .errorPropagate, .coalesce, .minus, .plus, .remainder,
    .star, .slash, .not, .notEqual, .equal, .greater, .greaterEqual, .less, .lessEqual, .assign, .mulAssign,
    .divAssign, .addAssign, .subAssign, .lazyAnd, .pipeline, .is],
    (Pat.lit (spelling k).toList, Act.tok k) ∈ patterns := by decide +kernel

theorem tok_spelled {k : Kind} (h : k ∈ [Kind.leftParen, .rightParen, .leftSquare, .rightSquare, .comma, .pipe,
    .rangeExclusive, .rangeInclusive, .dot, .questionMark, .errorPropagate, .coalesce, .minus, .plus, .remainder,
    .star, .slash, .not, .notEqual, .equal, .greater, .greaterEqual, .less, .lessEqual, .assign, .mulAssign,
    .divAssign, .addAssign, .subAssign, .lazyAnd, .pipeline, .is]) : Spelled (tok k) :=
  .fixed _ _ (kinds_spelled k h)

/-- All the tokens can be spelled. -/
def AllSpelled (us : List Token) : Prop := ∀ u ∈ us, Spelled u

theorem AllSpelled.cons {u : Token} {us : List Token} (h : Spelled u) (h' : AllSpelled us) :
    AllSpelled (u :: us) := by
  intro v hv
  rcases List.mem_cons.1 hv with rfl | hv
  · exact h
  · exact h' v hv

theorem AllSpelled.nil : AllSpelled [] := fun _ h => by cases h

theorem AllSpelled.append {us vs : List Token} (h : AllSpelled us) (h' : AllSpelled vs) :
    AllSpelled (us ++ vs) := by
  intro v hv
  rcases List.mem_append.1 hv with hv | hv
  · exact h v hv
  · exact h' v hv

theorem AllSpelled.wrap {us : List Token} (h : AllSpelled us) (n m : Nat) : AllSpelled (wrap n m us) := by
  unfold Grammar.wrap
  split
  · exact ((AllSpelled.cons (tok_spelled (by decide)) h).append (.cons (tok_spelled (by decide)) .nil))
  · exact h

theorem AllSpelled.commas : ∀ {l : List (List Token)}, (∀ us ∈ l, AllSpelled us) → AllSpelled (commas l)
  | [], _ => .nil
  | [us], h => h us (by simp)
  | us :: vs :: l, h =>
    (h us (by simp)).append (.cons (tok_spelled (by decide))
      (AllSpelled.commas fun ws hw => h ws (List.mem_cons_of_mem _ hw)))

theorem AllSpelled.params : ∀ {ps : List String}, (∀ p ∈ ps, IsName p) → AllSpelled (paramTokens ps)
  | [], _ => .nil
  | [p], h => .cons (name_spelled (h p (by simp))) .nil
  | p :: q :: ps, h =>
    .cons (name_spelled (h p (by simp))) (.cons (tok_spelled (by decide))
      (AllSpelled.params fun r hr => h r (List.mem_cons_of_mem _ hr)))

theorem unary_spelled (op : UnaryOp) : Spelled (tok (unaryKind op)) :=
  tok_spelled (by cases op <;> decide)

theorem assign_spelled (op : AssignOp) : Spelled (tok (assignKind op)) :=
  tok_spelled (by cases op <;> decide)

theorem binary_spelled (op : BinaryOp) : AllSpelled ((opKind op :: opRest op).map tok) := by
  intro u hu
  obtain ⟨k, hk, rfl⟩ := List.mem_map.1 hu
  refine tok_spelled ?_
  revert k
  cases op <;> decide

theorem tree_spelled (t : Tree) (h : t.Named) : AllSpelled t.tokens := by
  induction t with
  | leaf us e => exact h
  | unary op a ih => exact .cons (unary_spelled op) ((ih h).wrap _ _)
  | binary op a b iha ihb =>
    exact (((iha h.1).wrap _ _).append (binary_spelled op)).append ((ihb h.2).wrap _ _)
  | «is» a n q ih =>
    refine ((ih h.2).wrap _ _).append (.cons (tok_spelled (by decide)) (.cons (name_spelled h.1) ?_))
    cases q
    · exact .nil
    · exact .cons (tok_spelled (by decide)) .nil
  | nullProp a ih => exact ((ih h).wrap _ _).append (.cons (tok_spelled (by decide)) .nil)
  | errProp a ih => exact ((ih h).wrap _ _).append (.cons (tok_spelled (by decide)) .nil)
  | field a n ih =>
    exact ((ih h.2).wrap _ _).append (.cons (tok_spelled (by decide)) (.cons (name_spelled h.1) .nil))
  | index a b iha ihb =>
    exact (((iha h.1).wrap _ _).append (.cons (tok_spelled (by decide)) (ihb h.2))).append
      (.cons (tok_spelled (by decide)) .nil)
  | call a n args iha ihs =>
    refine (((iha h.1).wrap _ _).append (.cons (tok_spelled (by decide)) (.commas ?_))).append
      (.cons (tok_spelled (by decide)) .nil)
    intro us hu
    obtain ⟨i, rfl⟩ := List.mem_ofFn.1 hu
    exact ihs i (h.2 i)
  | list n elems ihs =>
    refine (AllSpelled.cons (tok_spelled (by decide)) (.commas ?_)).append (.cons (tok_spelled (by decide)) .nil)
    intro us hu
    obtain ⟨i, rfl⟩ := List.mem_ofFn.1 hu
    exact ihs i (h i)
  | assignName op n b ih => exact .cons (name_spelled h.1) (.cons (assign_spelled op) (ih h.2))
  | assignField op a n b iha ihb =>
    exact ((iha h.2.1).wrap _ _).append (.cons (tok_spelled (by decide)) (.cons (name_spelled h.1)
      (.cons (assign_spelled op) (ihb h.2.2))))
  | assignIndex op a i b iha ihi ihb =>
    exact (((iha h.1).wrap _ _).append (.cons (tok_spelled (by decide)) (ihi h.2.1))).append
      (.cons (tok_spelled (by decide)) (.cons (assign_spelled op) (ihb h.2.2)))
  | fn ps b ih =>
    exact (AllSpelled.cons (tok_spelled (by decide)) (.params h.1)).append
      (.cons (tok_spelled (by decide)) (ih h.2))

/-- C37 and C41: the text of a tree is lexed and parsed back into the tree. -/
theorem print_parse_text (t : Tree) (h : t.Ok) (hn : t.Named) :
    Parser.parseSource t.text = .ok (.block [] (some t.expr)) :=
  print_parse_source t h (by simpa [Tree.text] using spells_spaced _ (tree_spelled t hn))

/-- The name of a variable. -/
def var (n : String) : Tree := .leaf [nameTok n] (.ident n)

theorem var_ok (n : String) : (var n).Ok := .ident (nameTok n) rfl

/-- `(a + b) * -c.d ?? |x| x`, with the parentheses it has here and around the function. -/
def sample : Tree :=
  .binary .coalesce (.binary .multiply (.binary .add (var "a") (var "b")) (.unary .negate (.field (var "c") "d")))
    (.fn ["x"] (var "x"))

theorem isName_char (c : Char) (h : isIdentStart c = true) (h' : ∀ k ∈ keywords, k.1 ≠ String.ofList [c]) :
    IsName (String.ofList [c]) := ⟨c, [], by simp, h, by simp, h'⟩

theorem var_named {n : String} (h : IsName n) : (var n).Named := by
  intro u hu
  cases List.mem_singleton.1 hu
  exact name_spelled h

example : sample.text = "( a + b ) * - c . d ?? ( | x | x ) " ∧ sample.Ok ∧ sample.Named := by
  have a := isName_char 'a' (by decide) (by decide +kernel)
  have b := isName_char 'b' (by decide) (by decide +kernel)
  have c := isName_char 'c' (by decide) (by decide +kernel)
  have d := isName_char 'd' (by decide) (by decide +kernel)
  have x := isName_char 'x' (by decide) (by decide +kernel)
  refine ⟨by decide +kernel, ⟨⟨⟨var_ok _, var_ok _⟩, var_ok _⟩, by decide, var_ok _⟩,
    ⟨⟨var_named a, var_named b⟩, d, var_named c⟩, ?_, var_named x⟩
  intro p hp
  cases List.mem_singleton.1 hp
  exact x

/-- C37: of two operators without parentheses the tighter one groups first, and of equally tight ones the left
one. -/
theorem two_operators (o p : BinaryOp) (a b c : String) :
    Parser.parseTokens (([nameTok a] ++ (opKind o :: opRest o).map tok ++ [nameTok b] ++
      (opKind p :: opRest p).map tok ++ [nameTok c]).map .ok) =
    .ok (.block [] (some (
      if level p ≤ level o then .binary p (.binary o (.ident a) (.ident b)) (.ident c)
      else .binary o (.ident a) (.binary p (.ident b) (.ident c))))) := by
  by_cases h : level p ≤ level o
  · rw [if_pos h]
    have := print_parse (.binary p (.binary o (var a) (var b)) (var c)) ⟨⟨var_ok _, var_ok _⟩, var_ok _⟩
    refine Eq.trans ?_ this
    have h1 := level_op o (var a) (var b)
    have ho := level_le o
    have hp := level_le p
    simp only [Tree.tokens, h1, wrap, if_neg (Nat.not_lt.2 h)]
    rw [if_neg (by simp [var, Tree.level]; omega), if_neg (by simp [var, Tree.level]; omega),
      if_neg (by simp [var, Tree.level]; omega)]
    rfl
  · rw [if_neg h]
    have := print_parse (.binary o (var a) (.binary p (var b) (var c))) ⟨var_ok _, var_ok _, var_ok _⟩
    refine Eq.trans ?_ this
    have h1 := level_op p (var b) (var c)
    have ho := level_le o
    have hp := level_le p
    have hv : ∀ x, (var x).level = 12 := fun _ => rfl
    simp only [Tree.tokens, h1, wrap, hv]
    simp only [if_neg (show ¬ 12 < level o by omega), if_neg (show ¬ 12 < level p by omega),
      if_neg (show ¬ 12 < level p + 1 by omega), if_neg (show ¬ level p < level o + 1 by omega)]
    simp [var, Tree.tokens, Tree.expr]

/-- `a - b * c` and `a - b + c`. -/
example : level .subtract < level .multiply ∧ level .add ≤ level .subtract := by decide

end Dice.Grammar
