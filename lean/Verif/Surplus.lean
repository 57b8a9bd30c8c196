import Verif.SimSession

/-!
# Surplus arguments

C25: arguments beyond the parameters of a function do not change what it computes.
-/

namespace Dice

open Sim
open Src (SEnv State Out S Jump)

/-- The number of arguments that a function has names for; the receiver of a method is not passed as an argument. -/
def Src.Closure.arity (cl : Src.Closure) : Nat :=
  match cl.form with
  | .function => cl.args.length
  | _ => cl.args.length - 1

/-- The value is a function of the program with at most `k` parameters, or a class with such a constructor. -/
def Takes (σ : State) (f : Value) (k : Nat) : Prop :=
  (∃ i r cl, callTarget f = (Src.closure i, r) ∧ σ.fns[i]? = some cl ∧ cl.arity ≤ k) ∨
  (∃ c r i cl, callTarget f = (.cls c, r) ∧ σ.heap.method c "new" = some (Src.closure i) ∧ σ.fns[i]? = some cl ∧ cl.arity ≤ k)

theorem bindParams_surplus (w : World) (extra : List Value) : ∀ (args : List FnArg) (vs : List Value) (ρ : SEnv), args.length ≤ vs.length →
    Src.bindParams w args (vs ++ extra) ρ = Src.bindParams w args vs ρ
  | [], _, _, _ => rfl
  | a :: as, [], _, h => by simp at h
  | a :: as, v :: vs, ρ, h => by
    unfold Src.bindParams
    have ih := fun ρ => bindParams_surplus w extra as vs ρ (by simpa using h)
    simp only [List.cons_append, List.head?_cons, List.tail_cons, ih]

theorem invoke_surplus {w : World} {call : Src.Calls} {n : Nat} {cl : Src.Closure} {self : Value} {vs : List Value} (extra : List Value)
    (h : cl.arity ≤ vs.length) : Src.invoke w call n cl self (vs ++ extra) = Src.invoke w call n cl self vs := by
  have hb : Src.bindArgs w cl self (vs ++ extra) = Src.bindArgs w cl self vs := by
    unfold Src.Closure.arity at h
    unfold Src.bindArgs
    cases hf : cl.form <;> rw [hf] at h <;> simp only at h ⊢
    · funext σ
      simp only [bindParams_surplus w extra cl.args vs _ h]
    all_goals
      rw [← List.cons_append]
      exact bindParams_surplus w extra cl.args (self :: vs) _ (by simp; omega)
  unfold Src.invoke
  rw [hb]

theorem closure_surplus {w : World} {known : Src.Known} {src : Src.Sources} {σ : State} {f : Value} {vs : List Value} {i : Nat} {r : Option Value} {cl : Src.Closure}
    (extra : List Value) (h1 : callTarget f = (Src.closure i, r)) (h2 : σ.fns[i]? = some cl) (h3 : cl.arity ≤ vs.length) :
    ∀ n, (Src.calls w known src n).call f (vs ++ extra) σ = (Src.calls w known src n).call f vs σ
  | 0 => rfl
  | n + 1 => by
    show Src.apply w known (Src.calls w known src n) n f (vs ++ extra) σ = Src.apply w known (Src.calls w known src n) n f vs σ
    unfold Src.apply
    rw [h1]
    simp only [Src.closure, h2]
    rw [invoke_surplus extra h3]

/-- **C25.**  Surplus arguments do not change a call. -/
theorem call_surplus {w : World} {known : Src.Known} {src : Src.Sources} {σ : State} {f : Value} {vs : List Value} (extra : List Value)
    (h : Takes σ f vs.length) (n : Nat) : (Src.calls w known src n).call f (vs ++ extra) σ = (Src.calls w known src n).call f vs σ := by
  rcases h with ⟨i, r, cl, h1, h2, h3⟩ | ⟨c, r, i, cl, h1, h2, h3, h4⟩
  · exact closure_surplus extra h1 h2 h3 n
  · cases n with
    | zero => rfl
    | succ n =>
      show Src.apply w known (Src.calls w known src n) n f (vs ++ extra) σ = Src.apply w known (Src.calls w known src n) n f vs σ
      unfold Src.apply
      rw [h1]
      have hm : (σ.heap.newObject c).2.method c "new" = some (Src.closure i) := h2
      simp only [bind, S.bind, Src.onHeap, Src.construct, hm]
      exact closure_surplus (σ := { σ with heap := (σ.heap.newObject c).2 }) extra rfl h3 h4 n

/-! ## In programs -/

/-- The value of a literal. -/
def literalValue : Expr → Option Value
  | .unit => some .unit
  | .null => some .null
  | .bool b => some (.bool b)
  | .int i => some (.int i)
  | .str s => some (.str s)
  | _ => none

/-- Literals as arguments. -/
def Literals : List Expr → List Value → Prop
  | [], [] => True
  | e :: es, v :: vs => literalValue e = some v ∧ Literals es vs
  | _, _ => False

theorem literal_eval {w : World} {call : Src.Calls} {r : Src.Role} {n : Nat} {e : Expr} {v : Value} (h : literalValue e = some v) (ρ : SEnv) (σ : State) :
    S.operand (Src.eval w call r n false e ρ) σ = (.ok (v, ρ), σ) := by
  cases e <;> cases h <;> simp [Src.eval, S.operand, pure, S.pure]

theorem literals_eval {w : World} {call : Src.Calls} {r : Src.Role} {n : Nat} : ∀ {es : List Expr} {vs : List Value}, Literals es vs → ∀ (ρ : SEnv) (σ : State),
    Src.evalAll w call r n es ρ σ = (.ok (vs, ρ), σ)
  | [], [], _, ρ, σ => rfl
  | e :: es, v :: vs, h, ρ, σ => by
    unfold Src.evalAll
    rw [S.bind_ok_eq (literal_eval h.1 ρ σ)]
    simp only []
    rw [S.bind_ok_eq (literals_eval h.2 ρ σ)]
    rfl

theorem evalAll_append {w : World} {call : Src.Calls} {r : Src.Role} {n : Nat} {xs : List Expr} {us : List Value} (h : Literals xs us) :
    ∀ (es : List Expr) (ρ : SEnv), Src.evalAll w call r n (es ++ xs) ρ = (do
      let (vs, ρ) ← Src.evalAll w call r n es ρ
      pure (vs ++ us, ρ))
  | [], ρ => by
    funext σ
    show Src.evalAll w call r n xs ρ σ = _
    rw [literals_eval h]
    rfl
  | e :: es, ρ => by
    funext σ
    show Src.evalAll w call r n (e :: (es ++ xs)) ρ σ = _
    unfold Src.evalAll
    simp only [bind, S.bind]
    cases he : S.operand (Src.eval w call r n false e ρ) σ with
    | mk o σ1 =>
      cases o with
      | ok p =>
        simp only []
        rw [evalAll_append h es p.2]
        simp only [bind, S.bind]
        cases ha : Src.evalAll w call r n es p.2 σ1 with
        | mk o σ2 => cases o <;> rfl
      | _ => rfl

theorem evalAll_length {w : World} {call : Src.Calls} {r : Src.Role} {n : Nat} : ∀ {es : List Expr} {ρ ρ' : SEnv} {σ σ' : State} {vs : List Value},
    Src.evalAll w call r n es ρ σ = (.ok (vs, ρ'), σ') → vs.length = es.length
  | [], ρ, ρ', σ, σ', vs, h => by cases h; rfl
  | e :: es, ρ, ρ', σ, σ', vs, h => by
    unfold Src.evalAll at h
    simp only [bind, S.bind] at h
    cases he : S.operand (Src.eval w call r n false e ρ) σ with
    | mk o σ1 =>
      rw [he] at h
      cases o with
      | ok p =>
        simp only [] at h
        cases ha : Src.evalAll w call r n es p.2 σ1 with
        | mk o σ2 =>
          rw [ha] at h
          cases o with
          | ok q =>
            have := evalAll_length ha
            cases h
            simp [this]
          | _ => cases h
      | _ => cases h

theorem declaresAny_append {xs : List Expr} {us : List Value} (h : Literals xs us) : ∀ es, Src.declaresAny (es ++ xs) = Src.declaresAny es
  | [] => by
    show Src.declaresAny xs = _
    induction xs generalizing us with
    | nil => rfl
    | cons x xs ih =>
      cases us with
      | nil => exact h.elim
      | cons u us =>
        have hx : Src.declares x = false := by
          have := h.1
          cases x <;> cases this <;> rfl
        have hxs := ih h.2
        simp only [Src.declaresAny, hx, hxs, Bool.or_self]
  | e :: es => by
    rw [List.cons_append, Src.declaresAny, Src.declaresAny, declaresAny_append h es]

theorem chainEnd_congr {inside : Bool} {e e' : Expr} {ρ : SEnv} {x y : S (Value × SEnv)} {σ : State} (hc : Src.closed e = Src.closed e')
    (hd : Src.declares e = Src.declares e') (h : x σ = y σ) : Src.chainEnd inside e ρ x σ = Src.chainEnd inside e' ρ y σ := by
  unfold Src.chainEnd
  rw [hc, hd]
  cases inside
  · cases Src.closed e'
    · cases Src.declares e'
      · show S.close ρ x σ = S.close ρ y σ
        unfold S.close
        rw [h]
      · rfl
    · show S.noExit x σ = S.noExit y σ
      unfold S.noExit
      rw [h]
  · exact h

/-- **C25.**  A call with surplus arguments, here literals, is the call without them. -/
theorem eval_surplus {w : World} {known : Src.Known} {src : Src.Sources} {r : Src.Role} {n k : Nat} {inside : Bool} {e : Expr} {args xs : List Expr} {us : List Value}
    {ρ : SEnv} {σ : State} (hx : Literals xs us) (hlen : (args ++ xs).length ≤ 255)
    (ht : ∀ f ρ1 σ1 vs ρ2 σ2, Src.eval w (Src.calls w known src k) r n true e ρ σ = (.ok (f, ρ1), σ1) →
      Src.evalAll w (Src.calls w known src k) r n args ρ1 σ1 = (.ok (vs, ρ2), σ2) → Takes σ2 f args.length) :
    Src.eval w (Src.calls w known src k) r n inside (.call e (args ++ xs)) ρ σ = Src.eval w (Src.calls w known src k) r n inside (.call e args) ρ σ := by
  have hl1 : (args ++ xs).length ≤ 255 := hlen
  have hl2 : args.length ≤ 255 := by rw [List.length_append] at hlen; omega
  have key : (do
      let (f, ρ) ← Src.eval w (Src.calls w known src k) r n true e ρ
      let (vs, ρ) ← Src.evalAll w (Src.calls w known src k) r n (args ++ xs) ρ
      let v ← (Src.calls w known src k).call f vs
      pure (v, ρ) : S (Value × SEnv)) σ = (do
      let (f, ρ) ← Src.eval w (Src.calls w known src k) r n true e ρ
      let (vs, ρ) ← Src.evalAll w (Src.calls w known src k) r n args ρ
      let v ← (Src.calls w known src k).call f vs
      pure (v, ρ) : S (Value × SEnv)) σ := by
    simp only [bind, S.bind]
    cases he : Src.eval w (Src.calls w known src k) r n true e ρ σ with
    | mk o σ1 =>
      cases o with
      | ok p =>
        simp only []
        rw [evalAll_append hx]
        simp only [bind, S.bind]
        cases ha : Src.evalAll w (Src.calls w known src k) r n args p.2 σ1 with
        | mk o σ2 =>
          cases o with
          | ok q =>
            have hT := ht p.1 p.2 σ1 q.1 q.2 σ2 he ha
            rw [← evalAll_length ha] at hT
            simp only [pure, S.pure]
            rw [call_surplus us hT]
          | _ => rfl
      | _ => rfl
  simp only [Src.eval, S.guard, hl1, hl2, decide_true, Bool.and_true]
  cases Src.spine e with
  | false => rfl
  | true =>
    simp only [if_true]
    have hcl : Src.closed (.call e (args ++ xs)) = Src.closed (.call e args) := rfl
    have hd : Src.declares (.call e (args ++ xs)) = Src.declares (.call e args) := by
      simp only [Src.declares, declaresAny_append hx]
    exact chainEnd_congr hcl hd key

/-- Programs that end with a call. -/
def calling (es : List Expr) (e : Expr) (args : List Expr) : Expr := .block es (some (.call e args))

/-- **C25.**  Two programs that differ in the surplus arguments of their last call: what the evaluator says about the one holds for the runs of both
on the machine, unless the stack overflows. -/
theorem surplus_ignored_partial {w : World} {known : Src.Known} {src : Src.Sources} {n : Nat} {m : VM} {μ : Nat → Option Nat} {κ : List Value} {σ : State}
    {es : List Expr} {e : Expr} {args xs : List Expr} {us : List Value} {bc bc' : Bytecode} (hn : NativeRel w known) (hs : SourceRel w src)
    (h : compile .script (calling es e args) = .ok bc) (hf : Fits bc) (h' : compile .script (calling es e (args ++ xs)) = .ok bc') (hf' : Fits bc')
    (hm : Ready μ κ σ m) (hx : Literals xs us) (hlen : (args ++ xs).length ≤ 255)
    (ht : ∀ ρ0 σ0 ρ σ1 f ρ1 σ2 vs ρ2 σ3, Src.hoist (es ++ [.call e args]) [] σ = (.ok ρ0, σ0) →
      Src.evalStmts w (Src.calls w known src n) (.plain none) n es ρ0 σ0 = (.ok ρ, σ1) →
      Src.eval w (Src.calls w known src n) (.plain none) n true e ρ σ1 = (.ok (f, ρ1), σ2) →
      Src.evalAll w (Src.calls w known src n) (.plain none) n args ρ1 σ2 = (.ok (vs, ρ2), σ3) → Takes σ3 f args.length) :
    (Overflows (fun k => run w k bc) m ∨ Agrees κ (fun k => run w k bc) m n (Src.program w known src n (calling es e args) σ)) ∧
    (Overflows (fun k => run w k bc') m ∨ Agrees κ (fun k => run w k bc') m n (Src.program w known src n (calling es e args) σ)) := by
  have heq : Src.program w known src n (calling es e (args ++ xs)) σ = Src.program w known src n (calling es e args) σ := by
    unfold Src.program S.operand calling
    have hho : Src.hoist (es ++ (some (Expr.call e (args ++ xs))).toList) [] = Src.hoist (es ++ [.call e args]) [] := by
      have : ∀ (es : List Expr) (ρ : SEnv), Src.hoist (es ++ [.call e (args ++ xs)]) ρ = Src.hoist (es ++ [.call e args]) ρ := by
        intro es
        induction es with
        | nil => intro ρ; rfl
        | cons d es ih =>
          intro ρ
          simp only [List.cons_append, Src.hoist]
          cases Src.hoisted d with
          | none => exact ih ρ
          | some x => simp only [ih]
      exact this es []
    have hb : Src.eval w (Src.calls w known src n) (.plain none) n false (.block es (some (.call e (args ++ xs)))) [] σ =
        Src.eval w (Src.calls w known src n) (.plain none) n false (.block es (some (.call e args))) [] σ := by
      rw [Src.eval, Src.eval]
      unfold Src.block
      rw [hho]
      simp only [bind, S.bind]
      rw [show (some (Expr.call e args)).toList = [Expr.call e args] from rfl]
      cases h0 : Src.hoist (es ++ [.call e args]) [] σ with
      | mk o σ0 =>
        cases o with
        | ok ρ0 =>
          simp only []
          cases h1 : Src.evalStmts w (Src.calls w known src n) (.plain none) n es ρ0 σ0 with
          | mk o σ1 =>
            cases o with
            | ok ρ =>
              simp only [Src.evalOpt]
              rw [eval_surplus hx hlen fun f ρ1 σ2 vs ρ2 σ3 => ht ρ0 σ0 ρ σ1 f ρ1 σ2 vs ρ2 σ3 h0 h1]
            | _ => rfl
        | _ => rfl
    simp only [bind, S.bind]
    rw [hb]
  refine ⟨compiled_program_agrees_partial hn hs h hf hm n, ?_⟩
  rw [← heq]
  exact compiled_program_agrees_partial hn hs h' hf' hm n

/-- `fn inc(a) { a + 1 }` -/
def incFn : Expr := .fnDecl "inc" [⟨"a", none⟩] none (.block [] (some (.binary .add (.ident "a") (.int 1))))

/-- `inc(2)` and `inc(2, 3, "x")` meet the conditions. -/
example (w : World) (known : Src.Known) (src : Src.Sources) (n : Nat) (σ : State) :
    Literals [.int 3, .str "x"] [.int 3, .str "x"] ∧
    ∀ ρ0 σ0 ρ σ1 f ρ1 σ2 vs ρ2 σ3, Src.hoist ([incFn] ++ [.call (.ident "inc") [.int 2]]) [] σ = (.ok ρ0, σ0) →
      Src.evalStmts w (Src.calls w known src n) (.plain none) n [incFn] ρ0 σ0 = (.ok ρ, σ1) →
      Src.eval w (Src.calls w known src n) (.plain none) n true (.ident "inc") ρ σ1 = (.ok (f, ρ1), σ2) →
      Src.evalAll w (Src.calls w known src n) (.plain none) n [.int 2] ρ1 σ2 = (.ok (vs, ρ2), σ3) → Takes σ3 f 1 := by
  refine ⟨⟨rfl, rfl, trivial⟩, fun ρ0 σ0 ρ σ1 f ρ1 σ2 vs ρ2 σ3 h0 h1 h2 h3 => ?_⟩
  simp [Src.hoist, Src.hoisted, incFn, bind, S.bind, Src.alloc, pure, S.pure] at h0
  obtain ⟨rfl, rfl⟩ := h0
  simp [Src.evalStmts, Src.eval, incFn, bind, S.bind, pure, S.pure, List.lookup, Src.newFn, Src.writeLoc] at h1
  obtain ⟨rfl, rfl⟩ := h1
  simp [Src.eval, Src.readVar, List.lookup, Src.readLoc, bind, S.bind, pure, S.pure] at h2
  obtain ⟨⟨rfl, rfl⟩, rfl⟩ := h2
  simp [Src.evalAll, Src.eval, S.operand, bind, S.bind, pure, S.pure] at h3
  obtain ⟨-, rfl⟩ := h3
  exact .inl ⟨σ.fns.length, none, _, rfl, by simp; rfl, by simp [Src.Closure.arity]⟩

example : ([calling [incFn] (.ident "inc") [.int 2], calling [incFn] (.ident "inc") ([.int 2] ++ [.int 3, .str "x"])].all fun e => match compile .script e with
    | .ok bc => fitsUpTo 9 bc
    | .error _ => false) = true := by decide +kernel

end Dice
