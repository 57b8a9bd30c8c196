import Verif.OperatorProps

/-!
# The order of evaluation
-/

namespace Dice

/-- The operands of an operation that always evaluates all of them, in the order of the source. -/
def Expr.operands : Expr → Option (List Expr)
  | .unary _ a => some [a]
  | .binary op a b =>
    match op with
    | .logicalAnd | .logicalOr | .coalesce | .pipeline => none
    | _ => some [a, b]
  | .is a t => if t.isNullable then none else some [a]
  | .list es => some es
  | .object fs => some (fs.map (·.2))
  | .assign _ (.ident _) e => some [e]
  | .assign _ (.field a _) e => some [a, e]
  | .assign _ (.index a i) e => some [a, i, e]
  | .field a _ => some [a]
  | .index a i => some [a, i]
  | .call a es => some (a :: es)
  | .superCall es => some es
  | _ => none

/-- A list of instructions and of codes of operands, run one after the other; the first that does not end
normally ends it. -/
def RunList (w : World) (f : Frame) (ups : Option (List Nat)) : List (Instr ⊕ Code) → VM → Res → VM → Prop
  | [], m, r, m' => r = .done .normal ∧ m' = m
  | .inl i :: ps, m, r, m' => Then (Runs w f ups (.instr i)) (RunList w f ups ps) m r m'
  | .inr c :: ps, m, r, m' => Then (Runs w f ups c) (RunList w f ups ps) m r m'

/-- The codes of the operands among the pieces. -/
def operandCodes (ps : List (Instr ⊕ Code)) : List Code := ps.filterMap fun | .inl _ => none | .inr c => some c

/-- `cs` are codes of the expressions `es`. -/
inductive CodesOf : List Expr → List Code → Prop where
  | nil : CodesOf [] []
  | cons {e : Expr} {es : List Expr} {c : Code} {cs : List Code} {g g' : Env} (h : Gen g (.expr e) c g') (hs : CodesOf es cs) :
      CodesOf (e :: es) (c :: cs)

/-- The code `c` runs single instructions and the codes of the operands `es`, each exactly once and in order. -/
def EvalsInOrder (es : List Expr) (c : Code) : Prop :=
  ∃ ps, CodesOf es (operandCodes ps) ∧ ∀ w f ups m r m', Runs w f ups c m r m' ↔ RunList w f ups ps m r m'

theorem then_normal {A : VM → Res → VM → Prop} {m m' : VM} {r : Res} :
    Then A (fun m r m' => r = .done .normal ∧ m' = m) m r m' ↔ A m r m' := by
  constructor
  · rintro (⟨h, -⟩ | ⟨m1, h, rfl, rfl⟩) <;> exact h
  · intro h
    by_cases hr : r = .done .normal
    · subst hr; exact .inr ⟨m', h, rfl, rfl⟩
    · exact .inl ⟨h, hr⟩

theorem then_assoc {A B C : VM → Res → VM → Prop} {m m' : VM} {r : Res} :
    Then (Then A B) C m r m' ↔ Then A (Then B C) m r m' := by
  constructor
  · rintro (⟨h | ⟨m1, h1, h2⟩, hr⟩ | ⟨m2, h | ⟨m1, h1, h2⟩, h3⟩)
    · exact .inl h
    · exact .inr ⟨m1, h1, .inl ⟨h2, hr⟩⟩
    · exact absurd rfl h.2
    · exact .inr ⟨m1, h1, .inr ⟨m2, h2, h3⟩⟩
  · rintro (⟨h, hr⟩ | ⟨m1, h1, ⟨h2, hr⟩ | ⟨m2, h2, h3⟩⟩)
    · exact .inl ⟨.inl ⟨h, hr⟩, hr⟩
    · exact .inl ⟨.inr ⟨m1, h1, h2⟩, hr⟩
    · exact .inr ⟨m2, .inr ⟨m1, h1, h2⟩, h3⟩

theorem then_congr {A A' B B' : VM → Res → VM → Prop} (hA : ∀ m r m', A m r m' ↔ A' m r m')
    (hB : ∀ m r m', B m r m' ↔ B' m r m') {m m' : VM} {r : Res} : Then A B m r m' ↔ Then A' B' m r m' :=
  or_congr (and_congr (hA _ _ _) Iff.rfl) (exists_congr fun _ => and_congr (hA _ _ _) (hB _ _ _))

theorem runList_append {w : World} {f : Frame} {ups : Option (List Nat)} (ps qs : List (Instr ⊕ Code)) (m : VM) (r : Res)
    (m' : VM) : RunList w f ups (ps ++ qs) m r m' ↔ Then (RunList w f ups ps) (RunList w f ups qs) m r m' := by
  induction ps generalizing m r m' with
  | nil =>
    constructor
    · intro h; exact .inr ⟨m, ⟨rfl, rfl⟩, h⟩
    · rintro (⟨⟨rfl, -⟩, hr⟩ | ⟨m1, ⟨-, rfl⟩, h⟩)
      · exact absurd rfl hr
      · exact h
  | cons p ps ih =>
    cases p with
    | inl i => exact (then_congr (fun _ _ _ => Iff.rfl) ih).trans then_assoc.symm
    | inr c => exact (then_congr (fun _ _ _ => Iff.rfl) ih).trans then_assoc.symm

theorem CodesOf.append {es es' : List Expr} {cs cs' : List Code} (h : CodesOf es cs) (h' : CodesOf es' cs') :
    CodesOf (es ++ es') (cs ++ cs') := by
  induction h with
  | nil => exact h'
  | cons h _ ih => exact .cons h ih

namespace EvalsInOrder

theorem seq {es es' : List Expr} {c c' : Code} (h : EvalsInOrder es c) (h' : EvalsInOrder es' c') :
    EvalsInOrder (es ++ es') (.seq c c') := by
  obtain ⟨ps, h1, h2⟩ := h
  obtain ⟨qs, h1', h2'⟩ := h'
  refine ⟨ps ++ qs, ?_, fun w f ups m r m' => ?_⟩
  · unfold operandCodes
    rw [List.filterMap_append]
    exact h1.append h1'
  · rw [runs_seq, runList_append]
    exact then_congr (h2 w f ups) (h2' w f ups)

theorem nop : EvalsInOrder [] .nop := ⟨[], .nil, fun _ _ _ _ _ _ => runs_nop⟩

theorem instr (i : Instr) : EvalsInOrder [] (.instr i) := ⟨[.inl i], .nil, fun _ _ _ _ _ _ => then_normal.symm⟩

theorem one {g g' : Env} {e : Expr} {c : Code} (h : Gen g (.expr e) c g') : EvalsInOrder [e] c :=
  ⟨[.inr c], .cons h .nil, fun _ _ _ _ _ _ => then_normal.symm⟩

theorem block1 {es : List Expr} {c : Code} (h : EvalsInOrder es c) : EvalsInOrder es (.block [c]) := by
  obtain ⟨ps, h1, h2⟩ := h
  exact ⟨ps, h1, fun w f ups m r m' => runs_block1.trans (h2 w f ups m r m')⟩

/-- An operand, then the rest. -/
theorem cons {g g' : Env} {e : Expr} {es : List Expr} {c : Code} {cs : List Code} (h : Gen g (.expr e) c g')
    (hs : EvalsInOrder es (.block cs)) : EvalsInOrder (e :: es) (.block (c :: cs)) := (one h).seq hs

/-- An instruction, then the rest. -/
theorem glue {i : Instr} {es : List Expr} {cs : List Code} (hs : EvalsInOrder es (.block cs)) :
    EvalsInOrder es (.block (.instr i :: cs)) := (instr i).seq hs

theorem done : EvalsInOrder [] (.block []) := nop

/-- Several operands, then only instructions. -/
theorem last {es : List Expr} {c c' : Code} (h : EvalsInOrder es c) (h' : EvalsInOrder [] c') : EvalsInOrder es (.seq c c') := by
  have := h.seq h'
  rwa [List.append_nil] at this

end EvalsInOrder

theorem items_in_order {g g' : Env} {es : List Expr} {c : Code} (h : Gen g (.items es) c g') : EvalsInOrder es c := by
  induction es generalizing g c with
  | nil => cases h; exact .nop
  | cons e es ih => cases h with | itemsCons h1 h2 => exact (EvalsInOrder.one h1).seq (ih h2)

theorem args_in_order {g g' : Env} {es : List Expr} {c : Code} (h : Gen g (.args es) c g') : EvalsInOrder es c := by
  induction es generalizing g c with
  | nil => cases h; exact .nop
  | cons e es ih => cases h with | argsCons _ _ h1 _ h3 => exact (EvalsInOrder.one h1).seq (ih h3)

theorem fields_in_order {g g' : Env} {fs : List (String × Expr)} {c : Code} (h : Gen g (.fields fs) c g') :
    EvalsInOrder (fs.map (·.2)) c := by
  induction fs generalizing g c with
  | nil => cases h; exact .nop
  | cons e es ih =>
    cases h with
    | fieldsCons h1 h2 => exact .glue (.cons h1 (.glue (.glue (ih h2).block1)))

/-- **C21.**  The operations of `Expr.operands` evaluate their operands once each and in source order. -/
theorem operands_in_order_partial {g g' : Env} {e : Expr} {es : List Expr} {c : Code}
    (h : (e.isLink = false ∧ Gen g (.expr e) c g') ∨ Gen g (.link e) c g') (ho : e.operands = some es) :
    EvalsInOrder es c := by
  rcases h with ⟨hl, h⟩ | h
  · cases h with
    | chain he => rw [hl] at he; cases he
    | unary h => cases ho; exact (EvalsInOrder.one h).seq (.instr _)
    | binary hop h1 h2 =>
      rename_i op a b c1 c2 o
      have : some [a, b] = some es := by
        rw [← ho]; cases op <;> first | rfl | cases hop
      cases this
      exact .cons h1 (.cons h2 (.glue .done))
    | is hn h ht =>
      simp only [Expr.operands, hn, Bool.false_eq_true, if_false] at ho
      cases ho
      exact .cons h (.glue (.glue .done))
    | isNullable hn => simp only [Expr.operands, hn, if_true] at ho; cases ho
    | list h => cases ho; exact (items_in_order h).last (.instr _)
    | object h => cases ho; exact (EvalsInOrder.instr _).seq (fields_in_order h)
    | assignLocal _ _ h => cases ho; exact (EvalsInOrder.one h).seq (.instr _)
    | assignCaptured _ _ _ _ h => cases ho; exact (EvalsInOrder.one h).seq (.instr _)
    | updateLocal _ _ _ h => cases ho; exact .glue (.cons h (.glue (.glue .done)))
    | updateCaptured _ _ _ _ _ h => cases ho; exact .glue (.cons h (.glue (.glue .done)))
    | assignField h1 h2 => cases ho; exact .cons h1 (.cons h2 (.glue .done))
    | updateField _ h1 h2 => cases ho; exact .cons h1 (.glue (.glue (.cons h2 (.glue (.glue .done)))))
    | assignIndex h1 h2 h3 => cases ho; exact .cons h1 (.cons h2 (.cons h3 (.glue .done)))
    | updateIndex _ h1 h2 h3 =>
      cases ho; exact .cons h1 (.cons h2 (.glue (.glue (.glue (.cons h3 (.glue (.glue .done)))))))
    | _ => cases ho
  · cases h with
    | field h => cases ho; exact (EvalsInOrder.one h).seq (.instr _)
    | index h1 _ _ h2 => cases ho; exact .cons h1 (.cons h2 (.glue .done))
    | call h1 h2 =>
      cases ho
      exact .cons h1 ((args_in_order h2).last (.glue .done))
    | superCall _ h => cases ho; exact .glue ((args_in_order h).last (.glue (.glue .done)))
    | _ => cases ho

/-- The list `[null, ()]`, and the call `x(null, [()])` inside a chain. -/
example (g : Env) : EvalsInOrder [.null, .unit]
    (.seq (.seq (.op .pushNull) (.seq (.op .pushUnit) .nop)) (.num .createArray 2)) :=
  operands_in_order_partial (g := g) (e := .list [.null, .unit])
    (.inl ⟨rfl, .list (.itemsCons .null (.itemsCons .unit .itemsNil))⟩) rfl

end Dice
