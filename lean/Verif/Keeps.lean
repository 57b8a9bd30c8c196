import Verif.Eval

/-!
# Expressions that declare nothing keep the environment

In the reference evaluator, what follows an expression without declarations sees the variables that the expression saw.  The
law for `while` is a consequence.
-/

namespace Dice

namespace Src

/-- Ordinary results satisfy `P`. -/
structure Ends {α : Type} (x : S α) (P : α → Prop) : Prop where
  run : ∀ σ a σ', x σ = (.ok a, σ') → P a

section
variable {α β : Type}

theorem Ends.bind {x : S α} {f : α → S β} {Q : α → Prop} {P : β → Prop} (h : Ends x Q) (k : ∀ a, Q a → Ends (f a) P) :
    Ends (x >>= f) P := by
  constructor
  intro σ b σ' he
  change S.bind x f σ = _ at he
  unfold S.bind at he
  rcases hx : x σ with ⟨o, σ1⟩
  rw [hx] at he
  cases o with
  | ok a => exact (k a (h.run _ _ _ hx)).run _ _ _ he
  | _ => cases he

theorem Ends.any {x : S α} {f : α → S β} {P : β → Prop} (k : ∀ a, Ends (f a) P) : Ends (x >>= f) P :=
  Ends.bind (Q := fun _ => True) ⟨fun _ _ _ _ => trivial⟩ fun a _ => k a

theorem Ends.env {x : S (α × SEnv)} {ρ : SEnv} {f : α × SEnv → S β} {P : β → Prop} (h : Ends x fun p => p.2 = ρ)
    (k : ∀ v, Ends (f (v, ρ)) P) : Ends (x >>= f) P :=
  h.bind fun | (v, _), rfl => k v

theorem Ends.envOnly {x : S SEnv} {ρ : SEnv} {f : SEnv → S β} {P : β → Prop} (h : Ends x fun p => p = ρ)
    (k : Ends (f ρ) P) : Ends (x >>= f) P :=
  h.bind fun | _, rfl => k

theorem ends_pure {a : α} {P : α → Prop} (h : P a) : Ends (pure a) P := by
  constructor
  intro σ b σ' he
  cases he
  exact h

theorem ends_stuck {P : α → Prop} : Ends S.stuck P := ⟨fun _ _ _ h => nomatch h⟩

theorem ends_jump {j : Jump} {P : α → Prop} : Ends (S.jump j) P := ⟨fun _ _ _ h => nomatch h⟩

theorem Ends.operand {x : S α} {P : α → Prop} (h : Ends x P) : Ends x.operand P := by
  constructor
  intro σ a σ' he
  unfold S.operand at he
  rcases hx : x σ with ⟨o, σ1⟩
  rw [hx] at he
  cases o <;> cases he
  exact h.run _ _ _ hx

theorem Ends.noExit {x : S α} {P : α → Prop} (h : Ends x P) : Ends x.noExit P := by
  constructor
  intro σ a σ' he
  unfold S.noExit at he
  rcases hx : x σ with ⟨o, σ1⟩
  rw [hx] at he
  cases o with
  | jump j => cases j <;> cases he
  | ok b =>
    cases he
    exact h.run _ _ _ hx
  | _ => cases he

theorem Ends.guard {x : S α} {P : α → Prop} {b : Bool} (h : Ends x P) : Ends (S.guard b x) P := by
  unfold S.guard
  split
  · exact h
  · exact ends_stuck

theorem Ends.ite {x y : S α} {P : α → Prop} {c : Prop} [Decidable c] (h : Ends x P) (k : Ends y P) :
    Ends (if c then x else y) P := by
  split
  · exact h
  · exact k

end

theorem Ends.close {x : S (Value × SEnv)} {ρ : SEnv} (h : Ends x fun p => p.2 = ρ) : Ends (x.close ρ) fun p => p.2 = ρ := by
  constructor
  intro σ a σ' he
  unfold S.close at he
  rcases hx : x σ with ⟨o, σ1⟩
  rw [hx] at he
  cases o with
  | jump j =>
    cases j with
    | exit ρ' =>
      dsimp only at he
      split at he <;> cases he
      rfl
    | _ => cases he
  | ok b =>
    cases he
    exact h.run _ _ _ hx
  | _ => cases he

theorem Ends.chainEnd {x : S (Value × SEnv)} {ρ : SEnv} {inside : Bool} {e : Expr} (h : Ends x fun p => p.2 = ρ) :
    Ends (chainEnd inside e ρ x) fun p => p.2 = ρ := by
  unfold Src.chainEnd
  split
  · exact h
  · split
    · exact h.noExit
    · exact h.close.guard

/-- Steps through an evaluation, with the induction hypotheses in the context. -/
local macro "ends_steps" : tactic => `(tactic| repeat' first
  | intro _
  | with_reducible exact ends_pure rfl
  | with_reducible exact ends_stuck
  | with_reducible exact ends_jump
  | apply_assumption -exfalso -symm
  | with_reducible refine Ends.env (by first | apply_assumption -exfalso -symm | (apply Ends.operand; apply_assumption -exfalso -symm)) ?_
  | with_reducible refine Ends.envOnly (by apply_assumption -exfalso -symm) ?_
  | with_reducible refine Ends.any ?_
  | with_reducible refine Ends.guard ?_
  | with_reducible refine Ends.chainEnd ?_
  | with_reducible refine Ends.operand ?_
  | with_reducible refine Ends.ite ?_ ?_
  | dsimp only)

variable {w : World} {call : Calls} {r : Role} {n : Nat}

theorem ends_iterLoop {x : String} {source : S (Value × SEnv)} {body : SEnv → S (Value × SEnv)} {ρ : SEnv}
    (h : Ends source fun p => p.2 = ρ) : Ends (iterLoop w call n x source body) fun p => p.2 = ρ := by
  unfold iterLoop
  ends_steps

mutual

/-- **C70.**  After an expression that declares nothing the same variables are visible as before it. -/
theorem keeps_env : ∀ (e : Expr), declares e = false → ∀ (inside : Bool) (ρ : SEnv),
    Ends (eval w call r n inside e ρ) fun p => p.2 = ρ
  | .ident _, _, _, _ | .unit, _, _, _ | .null, _, _, _ | .bool _, _, _, _ | .int _, _, _, _ | .float _, _, _, _
  | .str _, _, _, _ | .anonFn .., _, _, _ | .opDecl .., _, _, _ | .break_, _, _, _ | .continue_, _, _, _
  | .block .., _, _, _ | .superAccess .., _, _, _ => by
    simp only [eval]
    ends_steps
  | .fnDecl x .., _, _, ρ => by
    simp only [eval]
    cases ρ.lookup x <;> ends_steps
  | .classDecl _ none _, _, _, _ | .classDecl _ (some _) _, _, _, _ => by
    simp only [eval]
    ends_steps
  | .object fs, h, _, _ => by
    have h1 := keeps_fields fs h
    simp only [eval]
    ends_steps
  | .list es, h, _, _ => by
    have h1 := keeps_all es h
    simp only [eval]
    ends_steps
  | .assign op (.ident x) rhs, h, _, ρ => by
    have h1 := keeps_env rhs h
    simp only [eval]
    cases ρ.lookup x <;> cases updateOp op <;> ends_steps
  | .assign op (.field e f) rhs, h, _, _ => by
    simp only [declares, Bool.or_eq_false_iff] at h
    have h1 := keeps_env e h.1
    have h2 := keeps_env rhs h.2
    simp only [eval]
    cases updateOp op <;> ends_steps
  | .assign op (.index e i) rhs, h, _, _ => by
    simp only [declares, Bool.or_eq_false_iff] at h
    have h1 := keeps_env e h.1.1
    have h2 := keeps_env i h.1.2
    have h3 := keeps_env rhs h.2
    simp only [eval]
    cases updateOp op <;> ends_steps
  | .unary _ e, h, _, _ => by
    have h1 := keeps_env e h
    simp only [eval]
    ends_steps
  | .binary op a b, h, _, _ => by
    simp only [declares, Bool.or_eq_false_iff] at h
    have h1 := keeps_env a h.1
    have h2 := keeps_env b h.2
    cases op <;> simp only [eval, strictOp] <;> ends_steps
  | .ifExpr a b e, h, _, _ => by
    simp only [declares, Bool.or_eq_false_iff] at h
    have h1 := keeps_env a h.1.1
    have h2 := keeps_env b h.1.2
    have h3 := keeps_opt e h.2
    simp only [eval]
    ends_steps
  | .forLoop x e body, h, inside, ρ => by
    have h1 := keeps_env e h
    by_cases hb : ∃ op a b, e = .binary op a b
    · obtain ⟨op, a, b, rfl⟩ := hb
      have h' := h
      simp only [declares, Bool.or_eq_false_iff] at h'
      have ha := keeps_env a h'.1
      have hb := keeps_env b h'.2
      simp only [eval]
      cases rangeOp op with
      | none => exact ends_iterLoop (h1 _ _)
      | some cmp => ends_steps
    · have he : eval w call r n inside (.forLoop x e body) ρ =
          iterLoop w call n x (eval w call r n false e ρ) (eval w call r n false body) := by
        cases e with
        | binary op a b => exact absurd ⟨op, a, b, rfl⟩ hb
        | _ => simp only [eval]
      rw [he]
      exact ends_iterLoop (h1 _ _)
  | .loop b, _, _, _ => by
    cases b with
    | block => simp only [eval]; ends_steps
    | _ => simp only [eval]; ends_steps
  | .whileLoop _ b, _, _, _ => by
    cases b with
    | block => simp only [eval]; ends_steps
    | _ => simp only [eval]; ends_steps
  | .return_ none, _, _, _ => by
    simp only [eval]
    cases r <;> ends_steps
  | .return_ (some e), h, _, _ => by
    simp only [eval]
    cases r <;> ends_steps
  | .field e f, h, _, _ => by
    have h1 := keeps_env e h
    simp only [eval]
    ends_steps
  | .index e i, h, _, _ => by
    simp only [declares, Bool.or_eq_false_iff] at h
    have h1 := keeps_env e h.1
    have h2 := keeps_env i h.2
    simp only [eval]
    ends_steps
  | .call e es, h, _, _ => by
    simp only [declares, Bool.or_eq_false_iff] at h
    have h1 := keeps_env e h.1
    have h2 := keeps_all es h.2
    simp only [eval]
    ends_steps
  | .superCall es, h, _, _ => by
    have h2 := keeps_all es h
    simp only [eval]
    ends_steps
  | .is e t, h, _, _ => by
    have h1 := keeps_env e h
    simp only [eval]
    ends_steps
  | .nullProp e, h, _, _ => by
    have h1 := keeps_env e h
    simp only [eval]
    ends_steps
  | .errProp e, h, _, _ => by
    have h1 := keeps_env e h
    simp only [eval]
    cases r <;> ends_steps
  | .varDecl .., h, _, _ | .importDecl .., h, _, _ | .exportDecl _, h, _, _ => nomatch h

theorem keeps_all : ∀ (es : List Expr), declaresAny es = false → ∀ (ρ : SEnv),
    Ends (evalAll w call r n es ρ) fun p => p.2 = ρ
  | [], _, _ => by
    simp only [evalAll]
    ends_steps
  | e :: es, h, _ => by
    simp only [declaresAny, Bool.or_eq_false_iff] at h
    have h1 := keeps_env e h.1
    have h2 := keeps_all es h.2
    simp only [evalAll]
    ends_steps

theorem keeps_fields : ∀ (fs : List (String × Expr)), declaresField fs = false → ∀ (o : Value) (ρ : SEnv),
    Ends (evalFields w call r n o fs ρ) fun p => p = ρ
  | [], _, _, _ => by
    simp only [evalFields]
    ends_steps
  | (_, e) :: fs, h, _, _ => by
    simp only [declaresField, Bool.or_eq_false_iff] at h
    have h1 := keeps_env e h.1
    have h2 := keeps_fields fs h.2
    simp only [evalFields]
    ends_steps

theorem keeps_opt : ∀ (e : Option Expr), declaresOpt e = false → ∀ (ρ : SEnv),
    Ends (evalOpt w call r n e ρ) fun p => p.2 = ρ
  | none, _, _ => by
    simp only [evalOpt]
    ends_steps
  | some e, h, _ => by
    have h1 := keeps_env e h
    simp only [evalOpt]
    ends_steps

end

theorem captured_none (σ : State) (ρ : SEnv) : captured σ ρ ρ = false := by
  simp [captured]

theorem run_bind {α β : Type} (x : S α) (f : α → S β) (σ : State) : (x >>= f) σ =
    match x σ with
    | (.ok a, σ) => f a σ
    | (.jump j, σ) => (.jump j, σ)
    | (.err e, σ) => (.err e, σ)
    | (.abort, σ) => (.abort, σ)
    | (.stuck, σ) => (.stuck, σ)
    | (.timeout, σ) => (.timeout, σ) := by
  show S.bind x f σ = _
  rfl

/-- Loops whose rounds differ only in how they end the loop. -/
theorem iter_exit {α : Type} {ρ : SEnv} {next : Option α} {f g : α → S (Option α)}
    (h : ∀ a σ, f a σ = g a σ ∨ ∃ σ', f a σ = (.ok none, σ') ∧ g a σ = (.jump (.brk ρ), σ')) :
    ∀ (k : Nat) (a : α), iter ρ next f k a = iter ρ next g k a
  | 0, _ => rfl
  | k + 1, a => by
    have ih := iter_exit (next := next) h k
    funext σ
    rcases h a σ with he | ⟨σ', hf, hg⟩
    · simp only [iter, he, ih]
    · simp only [iter, hf, hg, captured_none]
      rfl

/-- **C70.**  `while a { … }` is `loop { if a { … } else { break } }`. -/
theorem while_is_loop {a : Expr} (h : declares a = false) (inside : Bool) (es : List Expr) (t : Option Expr) (ρ : SEnv) :
    eval w call r n inside (.whileLoop a (.block es t)) ρ =
      eval w call r n inside
        (.loop (.block [] (some (.ifExpr a (.block es t) (some (.block [] (some .break_))))))) ρ := by
  simp only [eval, h, S.guard, Bool.not_false, if_true]
  congr 1
  apply iter_exit
  intro _ σ
  have hr : (do
      let _ ← block [] (some (.ifExpr a (.block es t) (some (.block [] (some .break_))))) (evalStmts w call r n [])
        (evalOpt w call r n (some (.ifExpr a (.block es t) (some (.block [] (some .break_)))))) ρ
      pure (some ())) = (do
      let (c, ρ) ← eval w call r n false a ρ
      let x ← truth c
      if x then do
        let _ ← block es t (evalStmts w call r n es) (evalOpt w call r n t) ρ
        pure (some ())
      else S.jump (.brk ρ) : S (Option Unit)) := by
    have hb : ∀ ρ, block [] (some .break_) (evalStmts w call r n []) (evalOpt w call r n (some .break_)) ρ = S.jump (.brk ρ) := by
      intro ρ
      simp only [block, evalStmts, evalOpt, eval]
      rfl
    have hi : evalOpt w call r n (some (.ifExpr a (.block es t) (some (.block [] (some .break_))))) ρ = (do
        let (c, ρ) ← eval w call r n false a ρ
        let x ← truth c
        if x then do
          let v ← block es t (evalStmts w call r n es) (evalOpt w call r n t) ρ
          pure (v, ρ)
        else S.jump (.brk ρ)) := by
      simp only [evalOpt, eval, declares, declaresOpt, S.guard, Bool.not_false, Bool.and_self, if_true, hb]
      rfl
    have hk : block [] (some (.ifExpr a (.block es t) (some (.block [] (some .break_))))) (evalStmts w call r n [])
        (evalOpt w call r n (some (.ifExpr a (.block es t) (some (.block [] (some .break_)))))) ρ = (do
        let (v, _) ← evalOpt w call r n (some (.ifExpr a (.block es t) (some (.block [] (some .break_))))) ρ
        pure v) := by
      unfold block
      simp only [evalStmts]
      rfl
    rw [hk, hi]
    funext σ
    simp only [run_bind]
    rcases eval w call r n false a ρ σ with ⟨o, σ1⟩
    cases o with
    | ok p =>
      dsimp only
      rcases truth p.1 σ1 with ⟨o, σ2⟩
      cases o with
      | ok b =>
        cases b with
        | true =>
          dsimp only
          simp only [if_true, run_bind]
          rcases block es t _ _ p.2 σ2 with ⟨o, σ3⟩
          cases o <;> rfl
        | false => rfl
      | _ => rfl
    | _ => rfl
  rw [hr]
  rcases ha : eval w call r n false a ρ σ with ⟨o, σ1⟩
  cases o with
  | ok p =>
    obtain ⟨c, ρ'⟩ := p
    cases (keeps_env a h false ρ).run _ _ _ ha
    rcases ht : truth c σ1 with ⟨o, σ2⟩
    cases o with
    | ok b =>
      cases b with
      | true => exact .inl (by simp only [run_bind, ha, ht, if_true])
      | false => exact .inr ⟨σ2, by simp only [run_bind, ha, ht]; rfl, by simp only [run_bind, ha, ht]; rfl⟩
    | _ => exact .inl (by simp only [run_bind, ha, ht])
  | _ => exact .inl (by simp only [run_bind, ha])

/-- A condition that calls and compares, and a body that declares, continues and ends the loop: the conditions that declare
nothing are those without `let` outside blocks. -/
example (ρ : SEnv) :
    let a : Expr := .binary .lessThan (.call (.field (.ident "xs") "length") []) (.int 10)
    let es : List Expr := [.varDecl (.singular "y") false (.int 1) none, .ifExpr (.ident "p") .continue_ (some .break_)]
    eval w call r n false (.whileLoop a (.block es none)) ρ =
      eval w call r n false (.loop (.block [] (some (.ifExpr a (.block es none) (some (.block [] (some .break_))))))) ρ :=
  while_is_loop rfl _ _ _ _

end Src

end Dice
