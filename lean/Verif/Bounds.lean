import Verif.Eval

/-!
# The bounds of the reference evaluator do not matter

An evaluation that does not use up its bounds on nested calls and iterations gives the same with all larger bounds.  So a
program has at most one meaning.
-/

namespace Dice

namespace Src

/-- Whenever `X` does not run out of its bounds, `Y` does the same. -/
structure Le {α : Type} (X Y : S α) : Prop where
  run : ∀ σ, (X σ).1 = .timeout ∨ X σ = Y σ

section
variable {α β : Type}

theorem Le.refl (X : S α) : Le X X := ⟨fun _ => .inr rfl⟩

theorem Le.timeout (Y : S α) : Le S.timeout Y := ⟨fun _ => .inl rfl⟩

theorem Le.bind {X Y : S α} {f g : α → S β} (h : Le X Y) (k : ∀ a, Le (f a) (g a)) : Le (X >>= f) (Y >>= g) := by
  refine ⟨fun σ => ?_⟩
  change (S.bind X f σ).1 = _ ∨ S.bind X f σ = S.bind Y g σ
  unfold S.bind
  rcases h.run σ with h | h
  · rcases hx : X σ with ⟨o, σ1⟩
    rw [hx] at h
    dsimp only at h
    subst h
    exact .inl rfl
  · rw [← h]
    rcases X σ with ⟨o, σ1⟩
    cases o with
    | ok a => exact (k a).run σ1
    | _ => exact .inr rfl

/-- What depends on the outcome only, and passes on that the bounds are used up. -/
theorem Le.map {X Y : S α} {F : Out α × State → Out β × State} (h : Le X Y) (ht : ∀ σ, (F (.timeout, σ)).1 = .timeout) :
    Le (fun σ => F (X σ)) (fun σ => F (Y σ)) := by
  refine ⟨fun σ => ?_⟩
  rcases h.run σ with h | h
  · rcases hx : X σ with ⟨o, σ1⟩
    rw [hx] at h
    dsimp only at h
    subst h
    exact .inl (ht σ1)
  · refine .inr ?_
    rw [h]

theorem Le.operand {X Y : S α} (h : Le X Y) : Le X.operand Y.operand :=
  h.map (F := fun r => match r with
    | (.jump _, σ) => (.stuck, σ)
    | r => r) fun _ => rfl

theorem Le.noReturn {X Y : S α} (h : Le X Y) : Le X.noReturn Y.noReturn :=
  h.map (F := fun r => match r with
    | (.jump (.ret _ _), σ) => (.stuck, σ)
    | (.jump (.bad _), σ) => (.stuck, σ)
    | r => r) fun _ => rfl

theorem Le.noExit {X Y : S α} (h : Le X Y) : Le X.noExit Y.noExit :=
  h.map (F := fun r => match r with
    | (.jump (.exit _), σ) => (.stuck, σ)
    | r => r) fun _ => rfl

theorem Le.guard {X Y : S α} {b : Bool} (h : Le X Y) : Le (S.guard b X) (S.guard b Y) := by
  unfold S.guard
  split
  · exact h
  · exact Le.refl _

theorem Le.ite {X X' Y Y' : S α} {c : Prop} [Decidable c] (h : Le X X') (k : Le Y Y') :
    Le (if c then X else Y) (if c then X' else Y') := by
  split
  · exact h
  · exact k

end

theorem Le.close {X Y : S (Value × SEnv)} {ρ : SEnv} (h : Le X Y) : Le (X.close ρ) (Y.close ρ) :=
  h.map (F := fun r => match r with
    | (.jump (.exit ρ'), σ) => if ρ'.length = ρ.length then (.ok (.null, ρ), σ) else (.stuck, σ)
    | r => r) fun _ => rfl

theorem Le.chainEnd {X Y : S (Value × SEnv)} {ρ : SEnv} {inside : Bool} {e : Expr} (h : Le X Y) :
    Le (chainEnd inside e ρ X) (chainEnd inside e ρ Y) := by
  unfold Src.chainEnd
  split
  · exact h
  · split
    · exact h.noExit
    · exact h.close.guard

theorem Le.result {X Y : S Value} {ρ : SEnv} (h : Le X Y) : Le (result ρ X) (result ρ Y) :=
  h.map (F := fun r => match r with
    | (.jump (.ret ρ' v), σ) => if captured σ ρ ρ' then (.stuck, σ) else (.ok v, σ)
    | (.jump (.bad e), σ) => (.err e, σ)
    | (.jump _, σ) => (.stuck, σ)
    | r => r) fun _ => rfl

theorem Le.iter {α : Type} {ρ : SEnv} {next : Option α} {f g : α → S (Option α)} (h : ∀ a, Le (f a) (g a)) :
    ∀ {n n' : Nat}, n ≤ n' → ∀ a, Le (iter ρ next f n a) (iter ρ next g n' a)
  | 0, _, _, _ => Le.timeout _
  | n + 1, 0, hn, _ => by omega
  | n + 1, n' + 1, hn, a => by
    have ih := Le.iter (ρ := ρ) (next := next) h (Nat.le_of_succ_le_succ hn)
    refine ⟨fun σ => ?_⟩
    simp only [Src.iter]
    rcases (h a).run σ with h | h
    · rcases hx : f a σ with ⟨o, σ1⟩
      rw [hx] at h
      dsimp only at h
      subst h
      exact .inl rfl
    · rw [← h]
      rcases f a σ with ⟨o, σ1⟩
      cases o with
      | ok b =>
        cases b with
        | some b => exact (ih b).run σ1
        | none => exact .inr rfl
      | jump j =>
        cases j with
        | cont ρ' =>
          cases next with
          | none => exact .inr rfl
          | some b =>
            dsimp only
            split
            · exact .inr rfl
            · exact (ih b).run σ1
        | _ => exact .inr rfl
      | _ => exact .inr rfl

/-- Calls with smaller bounds. -/
structure CallsLe (c c' : Calls) : Prop where
  calls : ∀ f vs, Le (c.call f vs) (c'.call f vs)
  loads : ∀ p, Le (c.load p) (c'.load p)

/-- Steps through two evaluations, with the induction hypotheses in the context. -/
local macro "le_steps" : tactic => `(tactic| repeat' first
  | intro _
  | with_reducible exact Le.refl _
  | apply_assumption -exfalso -symm
  | with_reducible refine Le.bind ?_ ?_
  | with_reducible refine Le.guard ?_
  | with_reducible refine Le.chainEnd ?_
  | with_reducible refine Le.operand ?_
  | with_reducible refine Le.noReturn ?_
  | with_reducible refine Le.ite ?_ ?_
  | dsimp only)

section
variable {w : World} {call call' : Calls} (hc : CallsLe call call')
include hc

theorem Le.construct {c : Nat} {o : Value} {vs : List Value} : Le (construct call c o vs) (construct call' c o vs) := by
  refine ⟨fun σ => ?_⟩
  unfold Src.construct
  cases σ.heap.method c "new" with
  | some f => exact (hc.calls _ _).run σ
  | none => exact .inr rfl

theorem Le.overloaded {y : String} {l r : Value} : Le (overloaded w call y l r) (overloaded w call' y l r) := by
  unfold Src.overloaded
  refine (Le.refl _).bind fun m => Le.ite ⟨fun σ => ?_⟩ (hc.calls _ _)
  cases σ.globals.get y with
  | some f => exact (hc.calls _ _).run σ
  | none => exact .inr rfl

theorem Le.binary {o : Opcode} {l r : Value} : Le (binary w call o l r) (binary w call' o l r) := by
  unfold Src.binary
  cases binDecide w o l r with
  | call => exact Le.overloaded hc
  | _ => exact Le.refl _

theorem Le.rangeRound {cmp : Opcode} {y : String} {stop v : Value} {ρ : SEnv} {body body' : SEnv → S (Value × SEnv)}
    (h : ∀ ρ, Le (body ρ) (body' ρ)) : Le (rangeRound w call cmp y stop ρ body v) (rangeRound w call' cmp y stop ρ body' v) := by
  have h1 := fun o l r => Le.binary (w := w) hc (o := o) (l := l) (r := r)
  unfold Src.rangeRound
  le_steps

theorem Le.iterRound {y : String} {next : Value} {ρ : SEnv} {body body' : SEnv → S (Value × SEnv)}
    (h : ∀ ρ, Le (body ρ) (body' ρ)) : Le (iterRound w call y next ρ body) (iterRound w call' y next ρ body') := by
  have h1 := hc.calls
  unfold Src.iterRound
  le_steps

theorem Le.iterLoop {n n' : Nat} (hn : n ≤ n') {y : String} {source source' : S (Value × SEnv)}
    {body body' : SEnv → S (Value × SEnv)} (hs : Le source source') (h : ∀ ρ, Le (body ρ) (body' ρ)) :
    Le (iterLoop w call n y source body) (iterLoop w call' n' y source' body') :=
  hs.bind fun _ => (Le.refl _).bind fun _ => (hc.calls _ _).bind fun _ => (Le.refl _).bind fun _ =>
    (Le.iter (fun _ => (Le.iterRound hc h).operand) hn _).bind fun _ => Le.refl _

end

theorem Le.block {es : List Expr} {t : Option Expr} {f f' : SEnv → S SEnv} {g g' : SEnv → S (Value × SEnv)} {ρ : SEnv}
    (h1 : ∀ ρ, Le (f ρ) (f' ρ)) (h2 : ∀ ρ, Le (g ρ) (g' ρ)) : Le (block es t f g ρ) (block es t f' g' ρ) :=
  (Le.refl _).bind fun _ => (h1 _).bind fun _ => (h2 _).bind fun _ => Le.refl _

theorem Le.classDecl {w : World} {y : String} {items : List Expr} {b b' : SEnv → S (Value × SEnv)} {ρ : SEnv}
    (h : Le (b ρ) (b' ρ)) : Le (classDecl w y items b ρ) (classDecl w y items b' ρ) :=
  h.bind fun _ => Le.refl _

section
variable {w : World} {call call' : Calls} (hc : CallsLe call call') {r : Role} {n n' : Nat} (hn : n ≤ n')
include hc hn

set_option linter.unusedSectionVars false
set_option maxHeartbeats 4000000 in
mutual

theorem le_eval : ∀ (e : Expr) (inside : Bool) (ρ : SEnv), Le (eval w call r n inside e ρ) (eval w call' r n' inside e ρ)
  | .ident _, _, _ | .unit, _, _ | .null, _, _ | .bool _, _, _ | .int _, _, _
  | .float _, _, _ | .str _, _, _ | .anonFn .., _, _ | .opDecl .., _, _
  | .break_, _, _ | .continue_, _, _ | .superAccess .., _, _ => by
    simp only [eval]
    le_steps
  | .block es t, _, _ => by
    simp only [eval]
    exact (Le.block (le_stmts es) (le_opt t)).bind fun _ => Le.refl _
  | .fnDecl y .., _, ρ => by
    simp only [eval]
    cases ρ.lookup y <;> le_steps
  | .classDecl y none _, _, _ => by
    simp only [eval]
    le_steps
  | .classDecl y (some b) _, _, ρ => by
    simp only [eval]
    exact (Le.classDecl (le_eval b _ ρ)).bind fun _ => Le.refl _
  | .object fs, _, _ => by
    have h1 := le_fields fs
    simp only [eval]
    le_steps
  | .list es, _, _ => by
    have h1 := le_all es
    simp only [eval]
    le_steps
  | .assign op t rhs, _, ρ => by
    have h0 := fun o l r => Le.binary (w := w) hc (o := o) (l := l) (r := r)
    have h1 := le_eval rhs
    by_cases h1 : ∃ y, t = .ident y
    · obtain ⟨y, rfl⟩ := h1
      simp only [eval]
      cases ρ.lookup y <;> cases updateOp op <;> le_steps
    · by_cases h2 : ∃ e f, t = .field e f
      · obtain ⟨e, f, rfl⟩ := h2
        have h2 := le_eval e
        simp only [eval]
        cases updateOp op <;> le_steps
      · by_cases h3 : ∃ e i, t = .index e i
        · obtain ⟨e, i, rfl⟩ := h3
          have h2 := le_eval e
          have h3 := le_eval i
          simp only [eval]
          cases updateOp op <;> le_steps
        · cases t with
          | ident y => exact absurd ⟨y, rfl⟩ h1
          | field e f => exact absurd ⟨e, f, rfl⟩ h2
          | index e i => exact absurd ⟨e, i, rfl⟩ h3
          | _ =>
            simp only [eval]
            exact Le.refl _
  | .unary _ e, _, _ => by
    have h1 := le_eval e
    simp only [eval]
    le_steps
  | .binary op a b, _, _ => by
    have h0 := fun o l r => Le.binary (w := w) hc (o := o) (l := l) (r := r)
    have h1 := le_eval a
    have h2 := le_eval b
    have h3 := hc.calls
    cases op <;> simp only [eval, strictOp] <;> le_steps
  | .is e t, _, _ => by
    have h1 := le_eval e
    simp only [eval]
    le_steps
  | .varDecl (.singular y) _ e t, _, _ | .varDecl (.destructured ys) _ e _, _, _ => by
    have h1 := le_eval e
    simp only [eval]
    le_steps
  | .importDecl none ys _, _, _ | .importDecl (some y) ys _, _, _ => by
    have h1 := hc.loads
    simp only [eval]
    le_steps
  | .exportDecl e, _, ρ => by
    have h1 := le_eval e
    simp only [eval]
    cases ρ.lookup exports <;> cases exported e <;> le_steps
  | .ifExpr a b e, _, _ => by
    have h1 := le_eval a
    have h2 := le_eval b
    have h3 := le_opt e
    simp only [eval]
    le_steps
  | .forLoop y e body, inside, ρ => by
    have h1 := le_eval e
    have h2 := le_eval body false
    by_cases hb : ∃ op a b, e = .binary op a b
    · obtain ⟨op, a, b, rfl⟩ := hb
      have ha := le_eval a
      have hb := le_eval b
      simp only [eval]
      cases rangeOp op with
      | none => exact Le.iterLoop hc hn (h1 _ _) h2
      | some cmp =>
        exact (hb _ _).bind fun _ => ((ha _ _).operand).bind fun _ =>
          (Le.iter (fun _ => (Le.rangeRound hc h2).noReturn) hn _).bind fun _ => Le.refl _
    · have he : ∀ (call : Calls) n, eval w call r n inside (.forLoop y e body) ρ =
          iterLoop w call n y (eval w call r n false e ρ) (eval w call r n false body) := by
        intro call n
        cases e with
        | binary op a b => exact absurd ⟨op, a, b, rfl⟩ hb
        | _ => simp only [eval]
      rw [he, he]
      exact Le.iterLoop hc hn (h1 _ _) h2
  | .loop b, _, _ => by
    cases b with
    | block es t =>
      simp only [eval]
      exact (Le.iter (fun _ => (Le.block (le_stmts es) (le_opt t)).bind fun _ => Le.refl _) hn _).bind fun _ => Le.refl _
    | _ => simp only [eval]; le_steps
  | .whileLoop a b, _, _ => by
    cases b with
    | block es t =>
      simp only [eval]
      refine Le.guard ((Le.iter (fun _ => ?_) hn _).bind fun _ => Le.refl _)
      exact (le_eval a _ _).bind fun _ => (Le.refl _).bind fun _ => Le.ite
        ((Le.block (le_stmts es) (le_opt t)).bind fun _ => Le.refl _) (Le.refl _)
    | _ => simp only [eval]; le_steps
  | .return_ none, _, _ => by
    simp only [eval]
    exact Le.refl _
  | .return_ (some e), _, _ => by
    have h1 := le_eval e
    simp only [eval]
    cases r <;> le_steps
  | .field e f, _, _ => by
    have h1 := le_eval e
    simp only [eval]
    le_steps
  | .index e i, _, _ => by
    have h1 := le_eval e
    have h2 := le_eval i
    simp only [eval]
    le_steps
  | .call e es, _, _ => by
    have h1 := le_eval e
    have h2 := le_all es
    have h3 := hc.calls
    simp only [eval]
    le_steps
  | .superCall es, _, _ => by
    have h2 := le_all es
    have h3 := fun c o vs => Le.construct hc (c := c) (o := o) (vs := vs)
    simp only [eval]
    le_steps
  | .nullProp e, _, _ => by
    have h1 := le_eval e
    simp only [eval]
    le_steps
  | .errProp e, _, _ => by
    have h1 := le_eval e
    simp only [eval]
    le_steps
termination_by e => sizeOf e

theorem le_all : ∀ (es : List Expr) (ρ : SEnv), Le (evalAll w call r n es ρ) (evalAll w call' r n' es ρ)
  | [], _ => by
    simp only [evalAll]
    le_steps
  | e :: es, _ => by
    have h1 := le_eval e
    have h2 := le_all es
    simp only [evalAll]
    le_steps
termination_by es => sizeOf es

theorem le_fields : ∀ (fs : List (String × Expr)) (o : Value) (ρ : SEnv), Le (evalFields w call r n o fs ρ) (evalFields w call' r n' o fs ρ)
  | [], _, _ => by
    simp only [evalFields]
    le_steps
  | (_, e) :: fs, _, _ => by
    have h1 := le_eval e
    have h2 := le_fields fs
    simp only [evalFields]
    le_steps
termination_by fs => sizeOf fs

theorem le_stmts : ∀ (es : List Expr) (ρ : SEnv), Le (evalStmts w call r n es ρ) (evalStmts w call' r n' es ρ)
  | [], _ => by
    simp only [evalStmts]
    le_steps
  | e :: es, _ => by
    have h1 := le_eval e
    have h2 := le_stmts es
    simp only [evalStmts]
    le_steps
termination_by es => sizeOf es

theorem le_opt : ∀ (e : Option Expr) (ρ : SEnv), Le (evalOpt w call r n e ρ) (evalOpt w call' r n' e ρ)
  | none, _ => by
    simp only [evalOpt]
    le_steps
  | some e, _ => by
    have h1 := le_eval e
    simp only [evalOpt]
    le_steps
termination_by e => sizeOf e

end

theorem Le.invoke {cl : Closure} {self : Value} {vs : List Value} : Le (invoke w call n cl self vs) (invoke w call' n' cl self vs) :=
  (Le.refl _).bind fun _ => (Le.refl _).bind fun _ => Le.result ((le_stmts hc hn _ _).bind fun _ => (le_opt hc hn _ _).bind fun _ =>
    Le.refl _)

theorem Le.apply {known : Known} {f : Value} {vs : List Value} : Le (apply w known call n f vs) (apply w known call' n' f vs) := by
  unfold Src.apply
  rcases callTarget f with ⟨v, rc⟩
  cases v with
  | fnClosure b y i us =>
    cases us with
    | nil =>
      refine ⟨fun σ => ?_⟩
      dsimp only
      cases σ.fns[i]? with
      | none => exact .inr rfl
      | some cl => exact (Le.invoke hc hn).run σ
    | cons => exact Le.refl _
  | cls c => exact (Le.refl _).bind fun _ => Le.construct hc
  | _ => exact Le.refl _

theorem Le.load {src : Sources} {p : String} : Le (load w src call n p) (load w src call' n' p) := by
  have hm : ∀ root o, Le (module w call n root o) (module w call' n' root o) := fun root o =>
    Le.operand ((Le.refl _).bind fun _ => (le_eval hc hn root _ _).bind fun _ => Le.refl _)
  refine ⟨fun σ => ?_⟩
  unfold Src.load
  cases σ.modules.get p with
  | some v => exact .inr rfl
  | none =>
    dsimp only
    cases w.loader p with
    | error e => exact .inr rfl
    | ok _ =>
      dsimp only
      cases src p with
      | none => exact .inr rfl
      | some root => exact (hm root _).run _

end

theorem calls_le {w : World} {known : Known} {src : Sources} : ∀ {n n' : Nat}, n ≤ n' →
    CallsLe (calls w known src n) (calls w known src n')
  | 0, _, _ => ⟨fun _ _ => Le.timeout _, fun _ => Le.timeout _⟩
  | n + 1, 0, h => by omega
  | n + 1, n' + 1, h =>
    have ih := calls_le (w := w) (known := known) (src := src) (Nat.le_of_succ_le_succ h)
    ⟨fun _ _ => Le.apply ih (Nat.le_of_succ_le_succ h), fun _ => Le.load ih (Nat.le_of_succ_le_succ h)⟩

/-- A program that ends within its bounds ends in the same way with all larger bounds. -/
theorem program_bound {w : World} {known : Known} {src : Sources} {n n' : Nat} (h : n ≤ n') (root : Expr) (σ : State)
    (ht : (program w known src n root σ).1 ≠ .timeout) : program w known src n' root σ = program w known src n root σ := by
  have := Le.operand ((le_eval (w := w) (calls_le (w := w) (known := known) (src := src) h) h (r := .plain none) root false []).bind
    fun p => Le.refl (pure p.1))
  rcases this.run σ with h | h
  · exact (ht h).elim
  · exact h.symm

/-- **C18.**  A program has one meaning: evaluations that end, with whatever bounds, agree on the outcome and on the state. -/
theorem program_unique {w : World} {known : Known} {src : Sources} {n n' : Nat} (root : Expr) (σ : State)
    (h : (program w known src n root σ).1 ≠ .timeout) (h' : (program w known src n' root σ).1 ≠ .timeout) :
    program w known src n root σ = program w known src n' root σ := by
  rcases Nat.le_total n n' with g | g
  · exact (program_bound g root σ h).symm
  · exact program_bound g root σ h'

/-- `let mut x = 0  while x < 2 { x += 1 }  x`. -/
def twice : Expr :=
  .block [.varDecl (.singular "x") true (.int 0) none,
    .whileLoop (.binary .lessThan (.ident "x") (.int 2)) (.block [.assign .add (.ident "x") (.int 1)] none)] (some (.ident "x"))

/-- Beside it: two iterations use up a bound of two, and are within all bounds from three on. -/
example {w : World} {known : Known} {src : Sources} : (program w known src 2 twice {}).1 = .timeout := by rfl

example {w : World} {known : Known} {src : Sources} {n : Nat} (h : 3 ≤ n) : (program w known src n twice {}).1 = .ok (.int 2) := by
  have h3 : (program w known src 3 twice {}).1 = .ok (.int 2) := by rfl
  rw [program_bound h _ _ (by rw [h3]; exact nofun), h3]

end Src

end Dice
