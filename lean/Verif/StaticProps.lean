import Verif.StaticView
import Verif.Blame
import Verif.Findings

/-!
# C13, C14, C15: assignments, initialisation and control flow statements stand where they may

All statements are about the occurrences of expressions in a program (`OccursIn`, Static.lean).
-/

namespace Dice

theorem accepted {kind : CompilerKind} {e : Expr} (h : (compile kind e).isOk = true) : ∃ bc, compile kind e = .ok bc := by
  cases hc : compile kind e with
  | ok bc => exact ⟨bc, rfl⟩
  | error _ => rw [hc] at h; cases h

/-! ## Looking up names -/

theorem lookup_cons (x : String) (c : Ctx) (g : Env) :
    Site.lookup x (Env.place (c :: g)) = match c.scopes.local? x with
      | some v => some v.toName
      | none => Site.lookup x (Env.place g) := by
  show findName x (c.place.names ++ _) = _
  rw [findName, List.find?_append, ← findName, place_names, findName_map]
  show ((c.scopes.local? x).map _).or _ = _
  cases c.scopes.local? x <;> rfl

/-- A captured variable is mutable if and only if what the name stands for is. -/
theorem resolve_mutable {x : String} {g : Env} : ∀ {c : Ctx} {i : Nat} {g1 : Env}, resolveUpvalue x (c :: g) = some (i, g1) →
    ∃ c1 r1 d n, g1 = c1 :: r1 ∧ c1.upvalues[i]? = some d ∧ Site.lookup x g.place = some n ∧ n.isMutable = d.isMutable := by
  induction g with
  | nil => intro c i g1 h; cases h
  | cons parent rest ih =>
    intro c i g1 h
    unfold resolveUpvalue at h
    cases hl : parent.scopes.local? x with
    | some v =>
      rw [hl] at h
      simp only [Option.some.injEq, Prod.mk.injEq] at h
      obtain ⟨h1, h2⟩ := h
      have := (addUpvalue_spec c (.parentLocal v.slot v.isMutable) _ _ rfl).2.2.1
      refine ⟨_, _, _, v.toName, h2.symm, h1 ▸ this, ?_, rfl⟩
      rw [lookup_cons, hl]
    | none =>
      rw [hl] at h
      simp only at h
      cases hr : resolveUpvalue x (parent :: rest) with
      | none => rw [hr] at h; cases h
      | some r =>
        obtain ⟨o, pr⟩ := r
        obtain ⟨c1, r1, d, n, rfl, hd, hn, hm⟩ := ih hr
        rw [hr] at h
        simp only [Option.some.injEq, Prod.mk.injEq, hd] at h
        obtain ⟨h1, h2⟩ := h
        have := (addUpvalue_spec c (.outer o d.isMutable) _ _ rfl).2.2.1
        refine ⟨_, _, .outer o d.isMutable, n, h2.symm, h1 ▸ this, ?_, hm⟩
        rw [lookup_cons, hl, hn]

/-! ## C13 -/

/-- **C13.**  In an accepted program the target of an assignment to a name stands for a variable declared mutable. -/
theorem assigned_variables_are_mutable {kind : CompilerKind} {root : Expr} {bc : Bytecode}
    (h : compile kind root = .ok bc) {q : Site} {op : AssignOp} {x : String} {rhs : Expr}
    (ho : OccursIn kind root q (.assign op (.ident x) rhs)) : ∃ n, q.lookup x = some n ∧ n.isMutable = true := by
  obtain ⟨g, c, g', h, rfl⟩ := compiled_occurs h ho
  have here : ∀ {v : ScopeVar}, g.lookup x = some v → v.isMutable = true →
      ∃ n, Site.lookup x g.place = some n ∧ n.isMutable = true := by
    intro v hv hm
    cases g with
    | nil => cases hv
    | cons c rest =>
      rw [lookup_cons, show c.scopes.local? x = some v from hv]
      exact ⟨_, rfl, hm⟩
  have outer : ∀ {g1 : Env} {i : Nat} {d : UpvalueDescriptor}, g.lookup x = none → resolveUpvalue x g = some (i, g1) →
      (g1.head?.bind fun cx => cx.upvalues[i]?) = some d → d.isMutable = true →
      ∃ n, Site.lookup x g.place = some n ∧ n.isMutable = true := by
    intro g1 i d hv hr hd hm
    cases g with
    | nil => cases hr
    | cons c rest =>
      obtain ⟨c1, r1, d', n, rfl, hd', hn, hmn⟩ := resolve_mutable hr
      have : d' = d := by simpa [hd'] using hd
      subst this
      rw [lookup_cons, show c.scopes.local? x = none from hv]
      exact ⟨n, hn, hmn.trans hm⟩
  cases h with
  | assignLocal hv hm _ => exact here hv hm
  | updateLocal hv hm _ _ => exact here hv hm
  | assignCaptured hv hr hd hm _ => exact outer hv hr hd hm
  | updateCaptured hv hr hd hm _ _ => exact outer hv hr hd hm
  | chain he => cases he

/-- `let mut x = 1; { fn () { x += 2 } }`: the assignment in the function occurs where `x` stands for the variable outside. -/
example : (∃ bc, compile .script (.block [.varDecl (.singular "x") true (.int 1) none]
      (some (.anonFn [] none (.assign .add (.ident "x") (.int 2))))) = .ok bc) ∧ ∃ q,
    OccursIn .script (.block [.varDecl (.singular "x") true (.int 1) none]
      (some (.anonFn [] none (.assign .add (.ident "x") (.int 2))))) q (.assign .add (.ident "x") (.int 2)) ∧
    q.lookup "x" = some ⟨"x", .local true true⟩ :=
  ⟨accepted (by decide +kernel) , _, .step (.step .here (.block (.tail .head))) (.anonFn ⟨.head⟩), rfl⟩

/-- The same with an immutable variable is rejected. -/
example : compile .script (.block [.varDecl (.singular "x") false (.int 1) none]
    (some (.anonFn [] none (.assign .add (.ident "x") (.int 2))))) = .error (.cannotReassign "x") := Findings.compile_error (by decide +kernel)

/-! ## C14 -/

/-- **C14.**  In an accepted program, a name that stands for something of the same function is only read behind its
declaration.  Missing: names that stand for something of an enclosing function; they can be read too early
(`captured_read_before_init`). -/
theorem reads_follow_declaration_partial {kind : CompilerKind} {root : Expr} {bc : Bytecode}
    (h : compile kind root = .ok bc) {q : Site} {x : String} (ho : OccursIn kind root q (.ident x)) {n : Name}
    (hn : q.lookupHere x = some n) : n.isReady = true := by
  obtain ⟨g, c, g', h, rfl⟩ := compiled_occurs h ho
  rw [lookupHere_place] at hn
  cases h with
  | ident h =>
    cases h with
    | «local» h hi =>
      rw [h] at hn
      cases hn
      exact hi
    | captured h _ => rw [h] at hn; cases hn
    | global h _ => rw [h] at hn; cases hn
  | chain he => cases he

/-- Use of a function before its declaration in the same block. -/
example : compile .script (.block [.ident "f"] (some (.fnDecl "f" [] none .unit))) = .error (.notInitialized "f") := Findings.compile_error (by decide +kernel)

example : (∃ bc, compile .script (.block [.fnDecl "f" [] none .unit] (some (.ident "f"))) = .ok bc) ∧ ∃ q,
    OccursIn .script (.block [.fnDecl "f" [] none .unit] (some (.ident "f"))) q (.ident "f") ∧
    q.lookupHere "f" = some ⟨"f", .function true⟩ :=
  ⟨accepted (by decide +kernel) , _, .step .here (.block (.tail .head)), rfl⟩

/-! ## C15 -/

theorem place_kind (g : Env) : g.place.kind = g.kind := by cases g <;> rfl

theorem innerLoop_place (g : Env) : g.place.innerLoop =
    match g with
    | [] => none
    | c :: _ => (c.scopes.firstOfKind .loop).map (·.entryPoint.isSome) := by
  cases g with
  | nil => rfl
  | cons c rest =>
    show List.findSome? _ (List.map ScopeContext.place c.scopes.stack) = Option.map _ (List.find? _ c.scopes.stack)
    induction c.scopes.stack with
    | nil => rfl
    | cons s ss ih =>
      rw [List.map_cons, List.findSome?_cons, List.find?_cons, ih]
      cases hk : s.kind
      · simp [ScopeContext.place, hk]
        rfl
      · simp [ScopeContext.place, hk]

/-- **C15.**  In an accepted program `break` occurs only in a loop of the same function. -/
theorem breaks_in_loops {kind : CompilerKind} {root : Expr} {bc : Bytecode} (h : compile kind root = .ok bc) {q : Site}
    (ho : OccursIn kind root q .break_) : q.innerLoop ≠ none := by
  obtain ⟨g, c, g', h, rfl⟩ := compiled_occurs h ho
  rw [innerLoop_place]
  cases h with
  | break_ h =>
    cases g with
    | nil => cases h
    | cons c rest =>
      intro hn
      have : (c.scopes.firstOfKind .loop).isSome = true := h
      simp only [Option.map_eq_none_iff] at hn
      rw [hn] at this
      cases this
  | chain he => cases he

/-- **C15.**  In an accepted program `continue` occurs only in a `loop` or `while` of the same function, not separated
from it by a `for`. -/
theorem continues_in_loops {kind : CompilerKind} {root : Expr} {bc : Bytecode} (h : compile kind root = .ok bc) {q : Site}
    (ho : OccursIn kind root q .continue_) : q.innerLoop = some true := by
  obtain ⟨g, c, g', h, rfl⟩ := compiled_occurs h ho
  rw [innerLoop_place]
  cases h with
  | continue_ h =>
    cases g with
    | nil => cases h
    | cons c rest =>
      have : ((c.scopes.firstOfKind .loop).bind (·.entryPoint)).isSome = true := h
      cases hl : c.scopes.firstOfKind .loop with
      | none => rw [hl] at this; cases this
      | some sc =>
        rw [hl] at this
        show Option.map _ (c.scopes.firstOfKind .loop) = _
        rw [hl]
        exact congrArg some this
  | chain he => cases he

/-- **C15.**  In an accepted program `return` occurs only in functions, methods and constructors, and with a value only in
functions and methods. -/
theorem returns_in_functions {kind : CompilerKind} {root : Expr} {bc : Bytecode} (h : compile kind root = .ok bc)
    {q : Site} {e : Option Expr} (ho : OccursIn kind root q (.return_ e)) :
    (∃ r, q.kind = some (.function r) ∨ q.kind = some (.method r)) ∨ (q.kind = some .constructor ∧ e = none) := by
  obtain ⟨g, c, g', h, rfl⟩ := compiled_occurs h ho
  rw [place_kind]
  cases h with
  | returnValue hk hf => obtain ⟨r, rfl | rfl⟩ := hf <;> exact .inl ⟨r, by simp [hk]⟩
  | returnUnit hk hf => obtain ⟨r, rfl | rfl⟩ := hf <;> exact .inl ⟨r, by simp [hk]⟩
  | returnSelf hk => exact .inr ⟨hk, rfl⟩
  | chain he => cases he

/-- **C15.**  In an accepted program the error propagation operator occurs only in functions and methods. -/
theorem errProps_in_functions {kind : CompilerKind} {root : Expr} {bc : Bytecode} (h : compile kind root = .ok bc)
    {q : Site} {e : Expr} (ho : OccursIn kind root q (.errProp e)) :
    ∃ r, q.kind = some (.function r) ∨ q.kind = some (.method r) := by
  obtain ⟨g, c, g', h, rfl⟩ := compiled_occurs h ho
  rw [place_kind]
  cases h with
  | chain _ _ h0 h =>
    cases h with
    | errProp hk hf =>
      rw [← place_kind, place_setCallDepth h0, place_kind] at hk
      obtain ⟨r, rfl | rfl⟩ := hf <;> exact ⟨r, by simp [hk]⟩

/-- **C15.**  In an accepted program `export` occurs only at the top level of a module. -/
theorem exports_at_top_level {kind : CompilerKind} {root : Expr} {bc : Bytecode} (h : compile kind root = .ok bc)
    {q : Site} {e : Expr} (ho : OccursIn kind root q (.exportDecl e)) : q.kind = some .module ∧ q.depth ≤ 1 := by
  obtain ⟨g, c, g', h, rfl⟩ := compiled_occurs h ho
  rw [place_kind]
  cases h with
  | exportDecl hk hd hd1 =>
    refine ⟨hk, ?_⟩
    match g, hd with
    | c :: rest, hd =>
      show (match c.scopes.stack.map ScopeContext.place with | [] => 0 | b :: _ => b.depth) ≤ 1
      have hd : c.scopes.stack.head?.map (·.depth) = some _ := hd
      cases hs : c.scopes.stack with
      | nil => exact Nat.zero_le _
      | cons s ss =>
        rw [hs] at hd
        cases hd
        exact hd1
  | chain he => cases he

/-- **C15.**  In an accepted program a member of the base class is accessed only in methods and constructors. -/
theorem superAccesses_in_methods {kind : CompilerKind} {root : Expr} {bc : Bytecode} (h : compile kind root = .ok bc)
    {q : Site} {f : String} {cls : Option String} (ho : OccursIn kind root q (.superAccess f cls)) :
    (∃ r, q.kind = some (.method r)) ∨ q.kind = some .constructor := by
  obtain ⟨g, c, g', h, rfl⟩ := compiled_occurs h ho
  rw [place_kind]
  cases h with
  | chain _ _ h0 h =>
    cases h with
    | superAccess hk hm =>
      rw [← place_kind, place_setCallDepth h0, place_kind] at hk
      rcases hm with ⟨r, rfl⟩ | rfl
      · exact .inl ⟨r, hk⟩
      · exact .inr hk

/-- **C15.**  In an accepted program the base constructor is called only where a variable `self` of the function is visible.
Missing: that it is called in a constructor; see `super_call_in_plain_function`. -/
theorem superCalls_see_self_partial {kind : CompilerKind} {root : Expr} {bc : Bytecode} (h : compile kind root = .ok bc)
    {q : Site} {es : List Expr} (ho : OccursIn kind root q (.superCall es)) : q.lookupHere nameSelf ≠ none := by
  obtain ⟨g, c, g', h, rfl⟩ := compiled_occurs h ho
  cases h with
  | chain _ _ h0 h =>
    cases h with
    | superCall hv =>
      rw [← place_setCallDepth h0, lookupHere_place, hv]
      exact fun h => nomatch h

/-- **Negation of the rest of C15.**  `fn f(self) { super(1); }` outside any class is accepted. -/
theorem super_call_in_plain_function : (∃ bc, compile .script
      (.block [.fnDecl "f" [⟨"self", none⟩] none (.block [.superCall [.int 1]] none)] none) = .ok bc) ∧
    ∃ q, OccursIn .script (.block [.fnDecl "f" [⟨"self", none⟩] none (.block [.superCall [.int 1]] none)] none) q
      (.superCall [.int 1]) ∧ q.kind = some (.function none) ∧ q.length = 2 :=
  ⟨accepted (by decide +kernel), _, .step (.step .here (.block .head)) (.fnDecl ⟨.head⟩), rfl, rfl⟩

/-! A program with all of these statements. -/

section
def exampleBody : Expr :=
  .block [.whileLoop (.bool true) (.block [.ifExpr (.null) (.block [.break_] none) (some (.block [.continue_] none))] none),
    .return_ (some (.errProp (.ident "x")))] none

def exampleModule : Expr := .block [.exportDecl (.fnDecl "f" [⟨"x", none⟩] none exampleBody)] none

theorem exampleModule_accepted : ∃ bc, compile .module exampleModule = .ok bc := accepted (by decide +kernel)

example : ∃ q, OccursIn .module exampleModule q .break_ ∧ q.innerLoop = some true :=
  ⟨_, .step (.step (.step (.step (.step (.step .here (.block .head)) .exportDecl) (.fnDecl ⟨.head⟩)) (.whileBody .head))
    (.ifExpr (.tail .head))) (.block .head), rfl⟩

example : ∃ q, OccursIn .module exampleModule q .continue_ ∧ q.innerLoop = some true :=
  ⟨_, .step (.step (.step (.step (.step (.step .here (.block .head)) .exportDecl) (.fnDecl ⟨.head⟩)) (.whileBody .head))
    (.ifExpr (.tail (.tail .head)))) (.block .head), rfl⟩

example : ∃ q, OccursIn .module exampleModule q (.errProp (.ident "x")) ∧ q.kind = some (.function none) :=
  ⟨_, .step (.step (.step (.step .here (.block .head)) .exportDecl) (.fnDecl ⟨.tail .head⟩)) .return_, rfl⟩

example : ∃ q, OccursIn .module exampleModule q (.return_ (some (.errProp (.ident "x")))) :=
  ⟨_, .step (.step (.step .here (.block .head)) .exportDecl) (.fnDecl ⟨.tail .head⟩)⟩

example : ∃ q, OccursIn .module exampleModule q (.exportDecl (.fnDecl "f" [⟨"x", none⟩] none exampleBody)) ∧ q.depth = 1 :=
  ⟨_, .step .here (.block .head), rfl⟩
end

end Dice
