import Verif.PrintProps

/-!
# What parsing leaves out

C39: how much of a source ends up in the tree, and C42: what the value of a string literal is.
-/

namespace Dice.Grammar

/-- Every closing brace closes an open one, and every open brace is closed. -/
inductive Balanced : List Token → Prop where
  | nil : Balanced []
  | other (t : Token) (us : List Token) : t.kind ≠ .leftCurly → t.kind ≠ .rightCurly → Balanced us →
      Balanced (t :: us)
  | braces (o c : Token) (us vs : List Token) : o.kind = .leftCurly → c.kind = .rightCurly → Balanced us →
      Balanced vs → Balanced (o :: us ++ c :: vs)

theorem Balanced.append {us vs : List Token} (h : Balanced us) (h' : Balanced vs) : Balanced (us ++ vs) := by
  induction h with
  | nil => exact h'
  | other t us h1 h2 _ ih => exact .other t _ h1 h2 ih
  | braces o c us ws h1 h2 h3 _ _ ih =>
    have := Balanced.braces o c us _ h1 h2 h3 ih
    simpa using this

theorem Balanced.plain {us : List Token} (h : ∀ t ∈ us, t.kind ≠ .leftCurly ∧ t.kind ≠ .rightCurly) :
    Balanced us := by
  induction us with
  | nil => exact .nil
  | cons t us ih =>
    exact .other t us (h t List.mem_cons_self).1 (h t List.mem_cons_self).2
      (ih fun u hu => h u (List.mem_cons_of_mem _ hu))

theorem Balanced.one {t : Token} (h : t.kind ≠ .leftCurly ∧ t.kind ≠ .rightCurly) : Balanced [t] :=
  .other t [] h.1 h.2 .nil

theorem Balanced.cons {t : Token} {us : List Token} (h : t.kind ≠ .leftCurly ∧ t.kind ≠ .rightCurly)
    (hu : Balanced us) : Balanced (t :: us) := .other t us h.1 h.2 hu

theorem Balanced.curly {o c : Token} {us : List Token} (ho : o.kind = .leftCurly) (hc : c.kind = .rightCurly)
    (h : Balanced us) : Balanced (o :: (us ++ [c])) := .braces o c us [] ho hc h .nil

/-- The token is no brace, given what kind it is. -/
theorem notBrace {t : Token} {k : Kind} (h : t.kind = k) (hk : k ≠ .leftCurly ∧ k ≠ .rightCurly) :
    t.kind ≠ .leftCurly ∧ t.kind ≠ .rightCurly := h ▸ hk

theorem Ann.balanced {a : TypeAnn} {us : List Token} (h : Ann a us) : Balanced us := by
  cases h with
  | plain _ h => exact .one (notBrace h (by decide))
  | nullable _ _ h h' => exact .cons (notBrace h (by decide)) (.one (notBrace h' (by decide)))

theorem Param.balanced {a : FnArg} {us : List Token} (h : Param a us) : Balanced us := by
  cases h with
  | untyped _ h => exact .one (notBrace h (by decide))
  | typed _ _ _ _ h h' ha => exact .cons (notBrace h (by decide)) (.cons (notBrace h' (by decide)) ha.balanced)

theorem Params.balanced {as : List FnArg} {us : List Token} (h : Params as us) : Balanced us := by
  induction h with
  | nil => exact .nil
  | last _ _ h => exact h.balanced
  | cons _ _ _ _ _ h h' _ ih => exact h.balanced.append (.cons (notBrace h' (by decide)) ih)

theorem Names.balanced {ns : List String} {us : List Token} (h : Names ns us) : Balanced us := by
  induction h with
  | nil => exact .nil
  | last _ h => exact .one (notBrace h (by decide))
  | cons _ _ _ _ h h' _ ih => exact .cons (notBrace h (by decide)) (.cons (notBrace h' (by decide)) ih)

theorem Ret.balanced {a : Option TypeAnn} {us : List Token} (h : Ret a us) : Balanced us := by
  cases h with
  | none => exact .nil
  | some _ _ _ h ha => exact .cons (notBrace h (by decide)) ha.balanced

theorem Pattern.balanced {k : VarKind} {us : List Token} (h : Pattern k us) : Balanced us := by
  cases h with
  | name _ h => exact .one (notBrace h (by decide))
  | names _ _ _ _ ho hc h => exact .curly ho hc h.balanced

theorem Mut.balanced {m : Bool} {us : List Token} (h : Mut m us) : Balanced us := by
  cases h with
  | no => exact .nil
  | yes _ h => exact .one (notBrace h (by decide))

theorem ImportModule.balanced {m : Option String} {us : List Token} (h : ImportModule m us) : Balanced us := by
  cases h with
  | none => exact .nil
  | some _ _ _ h h' h'' =>
    exact .cons (notBrace h (by decide)) (.cons (notBrace h' (by decide)) (.one (notBrace h'' (by decide))))
  | comma _ _ _ _ h h' h'' h3 =>
    exact .cons (notBrace h (by decide)) (.cons (notBrace h' (by decide)) (.cons (notBrace h'' (by decide))
      (.one (notBrace h3 (by decide)))))

theorem ImportItems.balanced {ns : List String} {us : List Token} (h : ImportItems ns us) : Balanced us := by
  cases h with
  | none => exact .nil
  | some _ _ _ _ ho hc h => exact .curly ho hc h.balanced

theorem Lit.balanced {t : Token} {e : Expr} (h : Lit t e) : Balanced [t] := by
  cases h <;> exact .one (notBrace (by assumption) (by decide))

theorem opKind_notBrace (op : BinaryOp) : opKind op ≠ .leftCurly ∧ opKind op ≠ .rightCurly := by
  cases op <;> decide

theorem opRest_balanced {op : BinaryOp} {ts : List Token} (h : ts.map (·.kind) = opRest op) : Balanced ts := by
  refine .plain fun t ht => ?_
  have h1 : t.kind ∈ opRest op := h ▸ List.mem_map_of_mem ht
  cases op <;> simp [opRest] at h1 <;> rw [h1] <;> decide

theorem assignKind_notBrace (op : AssignOp) : assignKind op ≠ .leftCurly ∧ assignKind op ≠ .rightCurly := by
  cases op <;> decide

theorem overKind_notBrace (op : OverOp) : overKind op ≠ .leftCurly ∧ overKind op ≠ .rightCurly := by
  cases op <;> decide

theorem unaryKind_notBrace (op : UnaryOp) : unaryKind op ≠ .leftCurly ∧ unaryKind op ≠ .rightCurly := by
  cases op <;> decide

theorem fieldKey_notBrace {k : Token} (h : k.kind ∈ [Kind.string, .integer, .identifier]) :
    k.kind ≠ .leftCurly ∧ k.kind ≠ .rightCurly := by
  simp only [List.mem_cons, List.not_mem_nil, or_false] at h
  rcases h with h | h | h <;> rw [h] <;> decide

/-- Splits the tokens of a rule into single tokens and the tokens of its parts. -/
syntax "balanced" : tactic
macro_rules
  | `(tactic| balanced) => `(tactic| first
    | assumption
    | exact Balanced.nil
    | exact Params.balanced (by assumption)
    | exact Names.balanced (by assumption)
    | exact Ret.balanced (by assumption)
    | exact Ann.balanced (by assumption)
    | exact Pattern.balanced (by assumption)
    | exact Mut.balanced (by assumption)
    | exact ImportModule.balanced (by assumption)
    | exact ImportItems.balanced (by assumption)
    | exact Lit.balanced (by assumption)
    | exact opRest_balanced (by assumption)
    | (refine Balanced.cons (notBrace (by assumption) (by decide)) ?_; balanced)
    | (refine Balanced.cons (notBrace (by assumption) (opKind_notBrace _)) ?_; balanced)
    | (refine Balanced.cons (notBrace (by assumption) (assignKind_notBrace _)) ?_; balanced)
    | (refine Balanced.cons (notBrace (by assumption) (overKind_notBrace _)) ?_; balanced)
    | (refine Balanced.cons (notBrace (by assumption) (unaryKind_notBrace _)) ?_; balanced)
    | (refine Balanced.cons (fieldKey_notBrace (by assumption)) ?_; balanced)
    | (refine Balanced.curly (by assumption) (by assumption) ?_; balanced)
    | (refine Balanced.append ?_ ?_ <;> balanced))

/-- What the grammar writes has matching braces. -/
theorem Writes.balanced {i : Item} {us : List Token} (h : Writes i us) : Balanced us := by
  induction h
  all_goals (try simp only [List.append_assoc, List.cons_append])
  all_goals balanced

/-- A closing brace that closes nothing, after tokens that were read without error. -/
def Stray (ts : Parser.Input) : Prop :=
  ∃ us c rest, ts = us.map .ok ++ .ok c :: rest ∧ Balanced us ∧ c.kind = .rightCurly

theorem patterns_noEnd : ∀ q ∈ patterns, q.2 ≠ .tok .endOfInput := by decide +kernel

theorem longestMatch_mem {cs : List Char} {n : Nat} {a : Act} (h : longestMatch cs patterns = some (n, a)) :
    ∃ p, (p, a) ∈ patterns := by
  obtain ⟨p, front, back, h1, _⟩ := longestMatch_some h
  exact ⟨p, by rw [h1]; simp⟩

theorem scan_noEnd (cs : List Char) : (scan cs).item ≠ some (.ok .endOfInput) := by
  unfold scan
  split
  · simp
  · next n k h =>
    obtain ⟨p, hp⟩ := longestMatch_mem h
    intro e
    cases e
    exact patterns_noEnd _ hp rfl
  · simp
  · split <;> simp
  · split <;> simp

/-- The end of the input is no token of a source. -/
theorem tokens_noEnd : ∀ (n pos : Nat) (cs : List Char), ∀ l ∈ tokens n pos cs, ∀ t : Token,
    l.item = .ok t → t.kind ≠ .endOfInput := by
  intro n
  induction n with
  | zero => intro pos cs l hl; simp [tokens] at hl
  | succ n ih =>
    intro pos cs l hl t ht
    cases cs with
    | nil => simp [tokens] at hl
    | cons c cs =>
      have hn := scan_noEnd (c :: cs)
      simp only [tokens] at hl
      split at hl
      · exact ih _ _ l hl t ht
      · rcases List.mem_cons.1 hl with rfl | hl
        · cases ht
        · exact ih _ _ l hl t ht
      · next k e =>
        rcases List.mem_cons.1 hl with rfl | hl
        · cases ht
          intro hk
          exact hn (by rw [e, show k = Kind.endOfInput from hk])
        · exact ih _ _ l hl t ht

/-- C39: a source that parses and has no closing brace too many is written in full by its tree: all its tokens
were read without error, and by the rules of the grammar they write the program.  The part that is missing is
that sources with a closing brace too many are rejected, which is false; see `stray_brace_hides`. -/
theorem parse_consumes_partial {source : String} {e : Expr} (h : Parser.parseSource source = .ok e)
    (hs : ¬Stray ((tokenize source.toList).map (·.item))) :
    ∃ us, (tokenize source.toList).map (·.item) = us.map .ok ∧ Program e us := by
  obtain ⟨es, us, rest, f, t, h1, hw, ht, hk, hf, rfl⟩ := Parser.parse_iff.1 h
  cases rest with
  | nil =>
    cases ht
    exact ⟨us, by simpa using h1, es, f, hw, hf, rfl⟩
  | cons x rest =>
    cases x with
    | error _ => exact ht.elim
    | ok u =>
      cases ht
      rcases hk with hk | hk
      · exfalso
        have hm : (Except.ok t : Except LexErr Token) ∈ (tokenize source.toList).map (·.item) := by
          rw [h1]; simp
        obtain ⟨l, hl, e⟩ := List.mem_map.1 hm
        exact tokens_noEnd _ _ _ l hl t e hk
      · exact absurd ⟨us, t, rest, h1, hw.balanced, hk⟩ hs

/-- C39: a program with a closing brace after it is parsed into the same tree, whatever comes after the
brace. -/
theorem stray_brace_hides {es : List Expr} {f : Kind → Prop} {us : List Token} (h : Writes (.seq es f) us)
    (hf : f .rightCurly) (c : Token) (hc : c.kind = .rightCurly) (rest : Parser.Input) :
    Parser.parseTokens (us.map .ok ++ .ok c :: rest) = .ok (blockOf es) :=
  Parser.parse_iff.2 ⟨es, us, _, f, c, rfl, h, rfl, .inr hc, hc ▸ hf, rfl⟩

/-- The source parses into the tree with which the test is passed. -/
def parsesTo (source : String) (test : Expr → Bool) : Bool :=
  match Parser.parseSource source with
  | .ok e => test e
  | .error _ => false

/-- C39, the part that fails: of `1 } let let` and of `1 } \"\q\"`, which has an escape that is none, only `1`
is read, and of an `else` without a block only the `else` is lost. -/
theorem source_ignored :
    parsesTo "1 } let let" (fun | .block [] (some (.int 1)) => true | _ => false) = true ∧
    parsesTo "1 } \"\\q\"" (fun | .block [] (some (.int 1)) => true | _ => false) = true ∧
    parsesTo "if a { 1 } else 2" (fun
      | .block [.ifExpr (.ident "a") (.block [] (some (.int 1))) none] (some (.int 2)) => true
      | _ => false) = true := by
  decide +kernel

/-- A program without stray braces. -/
example : parsesTo "if a { 1 } else { 2 }" (fun
      | .block [] (some (.ifExpr (.ident "a") (.block [] (some (.int 1))) (some (.block [] (some (.int 2))))))
        => true
      | _ => false) = true ∧
    Balanced [nameTok "a", tok .leftCurly, tok .integer, tok .rightCurly, tok .else_, tok .leftCurly,
      tok .integer, tok .rightCurly] :=
  ⟨by decide +kernel,
    .other _ _ (by decide) (by decide) (.braces _ _ [tok .integer] _ rfl rfl (.one (by decide))
      (.other _ _ (by decide) (by decide) (.braces _ _ [tok .integer] [] rfl rfl (.one (by decide)) .nil)))⟩

/-! ## String literals -/

/-- A text without escapes denotes itself, and no other text does. -/
theorem denotes_self {body value : List Char} (h : Denotes body value) : value = body ↔ '\\' ∉ body := by
  have le : ∀ {b v}, Denotes b v → v.length ≤ b.length := by
    intro b v h
    induction h with
    | nil => simp
    | plain _ _ _ ih => simp; omega
    | escape _ _ ih => simp; omega
  induction h with
  | nil => simp
  | @plain c b v h1 h2 _ ih => simp [ih, Ne.symm h2]
  | @escape c d b v h1 h2 ih =>
    have := le h2
    constructor
    · intro e
      have := congrArg List.length e
      simp at this
      omega
    · intro h; simp at h

/-- C42: a string literal whose text denotes a value is parsed into a literal of the text itself, which is the
value exactly if the text has no escapes.  The part that is missing is that the value is that of the escapes,
which is false: escapes are not replaced, see `escapes_not_replaced`. -/
theorem string_value_partial {body value : List Char} (h : Denotes body value) :
    Parser.parseSource (String.ofList ('"' :: (body ++ ['"']))) =
      .ok (.block [] (some (.str (String.ofList body)))) ∧
    (String.ofList body = String.ofList value ↔ '\\' ∉ body) := by
  constructor
  · have hw : Writes (.expr (.str (inner (String.ofList ('"' :: (body ++ ['"']))))) closedLevel any) _ :=
      .lit ⟨.string, String.ofList ('"' :: (body ++ ['"']))⟩ _ (.str _ rfl)
    have hi : inner (String.ofList ('"' :: (body ++ ['"']))) = String.ofList body := by simp [inner]
    rw [hi] at hw
    refine parse_program (us := [⟨.string, String.ofList ('"' :: (body ++ ['"']))⟩])
      ⟨[.str (String.ofList body)], _, .seqLast _ _ _ (.exprStmt _ _ _ _ hw), ⟨trivial, rfl⟩, rfl⟩ ?_
    exact Spells.last (Spelled.string _ body value (by simp) h)
  · rw [← denotes_self h]
    constructor
    · intro e
      have := congrArg String.toList e
      simpa using this.symm
    · rintro rfl; rfl

/-- C42, the part that fails: the two characters `\n` in a string literal denote one character but are kept. -/
theorem escapes_not_replaced : Denotes ['\\', 'n'] ['\n'] ∧
    Parser.parseSource "\"\\n\"" = .ok (.block [] (some (.str "\\n"))) :=
  ⟨.escape (by decide) .nil, (string_value_partial (body := ['\\', 'n']) (value := ['\n']) (.escape (by decide) .nil)).1⟩

/-- The text `ab\n`, with an escape, and the text `ab`, without. -/
example : Denotes ['a', 'b', '\\', 'n'] ['a', 'b', '\n'] ∧ Denotes ['a', 'b'] ['a', 'b'] :=
  ⟨.plain (by decide) (by decide) (.plain (by decide) (by decide) (.escape (by decide) .nil)), .plain (by decide) (by decide) (.plain (by decide) (by decide) .nil)⟩

end Dice.Grammar
