import Verif.ConsumeProps

/-!
# No accepted program has an error token (C39)

The lexer gives an `Error` token for text that no pattern matches.  No rule of the grammar has a place for one.
-/

namespace Dice.Grammar

/-- None of the tokens is an error. -/
def Clean (us : List Token) : Prop := ∀ t ∈ us, t.kind ≠ .error

theorem Clean.nil : Clean [] := nofun

theorem Clean.cons {t : Token} {us : List Token} (h : t.kind ≠ .error) (hu : Clean us) : Clean (t :: us) := by
  intro u hm
  rcases List.mem_cons.1 hm with rfl | hm
  · exact h
  · exact hu u hm

theorem Clean.append {us vs : List Token} (h : Clean us) (h' : Clean vs) : Clean (us ++ vs) := by
  intro u hm
  rcases List.mem_append.1 hm with hm | hm
  · exact h u hm
  · exact h' u hm

theorem Clean.one {t : Token} (h : t.kind ≠ .error) : Clean [t] := .cons h .nil

/-- The token is no error, given what kind it is. -/
theorem notError {t : Token} {k : Kind} (h : t.kind = k) (hk : k ≠ .error) : t.kind ≠ .error := h ▸ hk

theorem Ann.clean {a : TypeAnn} {us : List Token} (h : Ann a us) : Clean us := by
  cases h with
  | plain _ h => exact .one (notError h (by decide))
  | nullable _ _ h h' => exact .cons (notError h (by decide)) (.one (notError h' (by decide)))

theorem Param.clean {a : FnArg} {us : List Token} (h : Param a us) : Clean us := by
  cases h with
  | untyped _ h => exact .one (notError h (by decide))
  | typed _ _ _ _ h h' ha => exact .cons (notError h (by decide)) (.cons (notError h' (by decide)) ha.clean)

theorem Params.clean {as : List FnArg} {us : List Token} (h : Params as us) : Clean us := by
  induction h with
  | nil => exact .nil
  | last _ _ h => exact h.clean
  | cons _ _ _ _ _ h h' _ ih => exact h.clean.append (.cons (notError h' (by decide)) ih)

theorem Names.clean {ns : List String} {us : List Token} (h : Names ns us) : Clean us := by
  induction h with
  | nil => exact .nil
  | last _ h => exact .one (notError h (by decide))
  | cons _ _ _ _ h h' _ ih => exact .cons (notError h (by decide)) (.cons (notError h' (by decide)) ih)

theorem Ret.clean {a : Option TypeAnn} {us : List Token} (h : Ret a us) : Clean us := by
  cases h with
  | none => exact .nil
  | some _ _ _ h ha => exact .cons (notError h (by decide)) ha.clean

theorem Pattern.clean {k : VarKind} {us : List Token} (h : Pattern k us) : Clean us := by
  cases h with
  | name _ h => exact .one (notError h (by decide))
  | names _ _ _ _ ho hc h => exact .cons (notError ho (by decide)) (h.clean.append (.one (notError hc (by decide))))

theorem Mut.clean {m : Bool} {us : List Token} (h : Mut m us) : Clean us := by
  cases h with
  | no => exact .nil
  | yes _ h => exact .one (notError h (by decide))

theorem ImportModule.clean {m : Option String} {us : List Token} (h : ImportModule m us) : Clean us := by
  cases h with
  | none => exact .nil
  | some _ _ _ h h' h'' =>
    exact .cons (notError h (by decide)) (.cons (notError h' (by decide)) (.one (notError h'' (by decide))))
  | comma _ _ _ _ h h' h'' h3 =>
    exact .cons (notError h (by decide)) (.cons (notError h' (by decide)) (.cons (notError h'' (by decide))
      (.one (notError h3 (by decide)))))

theorem ImportItems.clean {ns : List String} {us : List Token} (h : ImportItems ns us) : Clean us := by
  cases h with
  | none => exact .nil
  | some _ _ _ _ ho hc h => exact .cons (notError ho (by decide)) (h.clean.append (.one (notError hc (by decide))))

theorem Lit.clean {t : Token} {e : Expr} (h : Lit t e) : Clean [t] := by
  cases h <;> exact .one (notError (by assumption) (by decide))

theorem opRest_clean {op : BinaryOp} {ts : List Token} (h : ts.map (·.kind) = opRest op) : Clean ts := by
  intro t ht
  have h1 : t.kind ∈ opRest op := h ▸ List.mem_map_of_mem ht
  cases op <;> simp [opRest] at h1 <;> rw [h1] <;> decide

theorem opKind_notError (op : BinaryOp) : opKind op ≠ .error := by cases op <;> decide

theorem assignKind_notError (op : AssignOp) : assignKind op ≠ .error := by cases op <;> decide

theorem overKind_notError (op : OverOp) : overKind op ≠ .error := by cases op <;> decide

theorem unaryKind_notError (op : UnaryOp) : unaryKind op ≠ .error := by cases op <;> decide

theorem fieldKey_notError {k : Token} (h : k.kind ∈ [Kind.string, .integer, .identifier]) : k.kind ≠ .error := by
  simp only [List.mem_cons, List.not_mem_nil, or_false] at h
  rcases h with h | h | h <;> rw [h] <;> decide

/-- Splits the tokens of a rule into single tokens and the tokens of its parts. -/
syntax "clean" : tactic
macro_rules
  | `(tactic| clean) => `(tactic| first
    | assumption
    | exact Clean.nil
    | exact Params.clean (by assumption)
    | exact Names.clean (by assumption)
    | exact Ret.clean (by assumption)
    | exact Ann.clean (by assumption)
    | exact Pattern.clean (by assumption)
    | exact Mut.clean (by assumption)
    | exact ImportModule.clean (by assumption)
    | exact ImportItems.clean (by assumption)
    | exact Lit.clean (by assumption)
    | exact opRest_clean (by assumption)
    | (refine Clean.cons (notError (by assumption) (by decide)) ?_; clean)
    | (refine Clean.cons (notError (by assumption) (opKind_notError _)) ?_; clean)
    | (refine Clean.cons (notError (by assumption) (assignKind_notError _)) ?_; clean)
    | (refine Clean.cons (notError (by assumption) (overKind_notError _)) ?_; clean)
    | (refine Clean.cons (notError (by assumption) (unaryKind_notError _)) ?_; clean)
    | (refine Clean.cons (fieldKey_notError (by assumption)) ?_; clean)
    | (refine Clean.append ?_ ?_ <;> clean))

/-- What the grammar writes has no error token. -/
theorem Writes.clean {i : Item} {us : List Token} (h : Writes i us) : Clean us := by
  induction h
  all_goals (try simp only [List.append_assoc, List.cons_append])
  all_goals clean

/-- C39: all tokens that a program is parsed from, up to the end or to the closing brace where the parser stops, were
read without error. -/
theorem parsed_without_errors {ts : Parser.Input} {e : Expr} (h : Parser.parseTokens ts = .ok e) :
    ∃ us rest, ts = us.map .ok ++ rest ∧ Clean us ∧ (rest = [] ∨ ∃ c rest', rest = .ok c :: rest' ∧ (c.kind = .rightCurly ∨ c.kind = .endOfInput)) := by
  obtain ⟨es, us, rest, f, t, h1, hw, ht, hk, hf, rfl⟩ := Parser.parse_iff.1 h
  refine ⟨us, rest, h1, hw.clean, ?_⟩
  cases rest with
  | nil => exact .inl rfl
  | cons x rest =>
    cases x with
    | error _ => exact ht.elim
    | ok u =>
      cases ht
      exact .inr ⟨_, _, rfl, hk.symm⟩

/-- C39: a text with an error token or a lexical error is rejected, unless a closing brace that closes nothing hides it. -/
theorem errors_rejected {source : String} (hs : ¬Stray ((tokenize source.toList).map (·.item)))
    (h : ∃ x ∈ (tokenize source.toList).map (·.item), ∀ t, x = .ok t → t.kind = .error) (e : Expr) :
    Parser.parseSource source ≠ .ok e := by
  intro hp
  obtain ⟨us, h1, es, f, hw, -, -⟩ := parse_consumes_partial hp hs
  obtain ⟨x, hx, hk⟩ := h
  rw [h1] at hx
  obtain ⟨t, ht, rfl⟩ := List.mem_map.1 hx
  exact hw.clean t ht (hk t rfl)

example : ∃ x ∈ (tokenize "a $ b".toList).map (·.item), ∀ t, x = .ok t → t.kind = .error :=
  ⟨.ok ⟨.error, "$"⟩, by
    rw [show (tokenize "a $ b".toList).map (·.item) = [.ok ⟨.identifier, "a"⟩, .ok ⟨.error, "$"⟩, .ok ⟨.identifier, "b"⟩] by kernel_rfl]
    simp, fun _ h => by cases h; rfl⟩

end Dice.Grammar
