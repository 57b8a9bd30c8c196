import Verif.ErrorsVisit
import Verif.Findings

/-!
# Rejected programs

The compiler rejects a program only for a reason: an expression of the program, at its place, that explains the error
(`rejected_for_a_reason`).  With `breaks_in_loops` and the other theorems of `StaticProps` this makes the rules of C13 and C15
exact, and it lists every way in which the compiler can panic (C16).
-/

namespace Dice

theorem wp_result {α : Type} {n : Nat} {x : M α} {v : View} {Q : α → Nat → View → Prop} {B : CErr → Prop} (h : Wp n x v Q B) {s : CState}
    {R : List (Nat × List Nat × Nat)} (hs : Sees s n v R) {e : CErr} (he : x s = .error e) : B e := by
  have := h s R hs
  rw [he] at this
  exact this

theorem bind_assoc {α β γ : Type} (x : M α) (f : α → M β) (g : β → M γ) : (x >>= f) >>= g = x >>= fun a => f a >>= g := by
  funext s
  show M.bind (M.bind x f) g s = M.bind x (fun a => M.bind (f a) g) s
  unfold M.bind
  cases x s <;> rfl

theorem sees_start (kind : CompilerKind) : Sees { stack := [{ kind }] } 0 ⟨[⟨kind, [{}]⟩], [0], 0⟩ [] := by
  refine ⟨fun d hd => ?_, rfl, rfl, { kind }, rfl, Nat.zero_le _, rfl, rfl⟩
  rcases List.mem_cons.1 hd with rfl | hd
  · refine ⟨by simp [ScopeStack.new], ?_, ?_, ?_⟩
    all_goals
      intro sc hsc
      have : sc = { kind := .block } := by simpa [ScopeStack.new] using hsc
      subst this
      intro _ h
      cases h
  · cases hd

theorem wp_pop {n : Nat} {v : View} {B : CErr → Prop} {s : CState} {R} (hs : Sees s n v R) {f : Ctx → Bytecode} {e : CErr}
    (h : (popCtx >>= fun c => (pure (f c) : M Bytecode)) s = .error e) : B e := by
  obtain ⟨c, hc, -⟩ := hs.head
  cases hst : s.stack with
  | nil => rw [hst] at hc; cases hc
  | cons d rest =>
    have : (popCtx >>= fun c => (pure (f c) : M Bytecode)) s = .ok (f d, { s with stack := rest }) := by
      show M.bind popCtx _ s = _
      unfold M.bind popCtx
      rw [hst]
      rfl
    rw [this] at h
    cases h

/-- **C15, C16.**  Whatever error the compiler reports, an expression of the program explains it. -/
theorem rejected_for_a_reason {kind : CompilerKind} {root : Expr} {err : CErr} (h : compile kind root = .error err) :
    ∃ q e, OccursIn kind root q e ∧ Culprit q e err := by
  show Blame (startSite kind) root err
  have hm : compileM kind root { stack := [{ kind }] } = .error err := by
    unfold compile at h
    cases hc : compileM kind root { stack := [{ kind }] } with
    | error e => rw [hc] at h; cases h; rfl
    | ok r => rw [hc] at h; cases h
  have visible : kind = .module → (afterExpr root (startSite kind)).lookupHere nameExport ≠ none := by
    rintro rfl
    refine (grows_expr root _).visible ?_
    decide
  -- the end of the compilation cannot fail
  have finish : ∀ n (s : CState) R, Sees s n ⟨afterExpr root (startSite kind), [0], 0⟩ R → ∀ e, compileEnd kind s ≠ .error e := by
    intro n s R hs e he
    by_cases hk : kind = .module
    · subst hk
      have : Wp n (lookupLocal nameExport >>= fun r => match r with
          | none => M.fail (.panic "#export should always be defined for modules.")
          | some u => emit .pop >>= fun _ => emit1 .loadLocal u.slot) ⟨afterExpr root (startSite .module), [0], 0⟩
          (fun _ _ w => w = ⟨afterExpr root (startSite .module), [0], 0⟩) (fun _ => False) := by
        refine wp_lookupb fun r m _ hr => ?_
        cases r with
        | none => exact absurd hr (visible rfl)
        | some u => exact wp_then vis_emit fun m _ => vis_emit1
      have := this s R hs
      have he' : ((lookupLocal nameExport >>= fun r => match r with
          | none => M.fail (.panic "#export should always be defined for modules.")
          | some u => emit .pop >>= fun _ => emit1 .loadLocal u.slot) >>= fun _ =>
            popCtx >>= fun c => (pure c.finish : M Bytecode)) s = .error e := by
        rw [← he]
        rw [bind_assoc]
        show M.bind _ _ s = M.bind _ _ s
        congr 1
        funext r
        cases r with
        | none => rfl
        | some u => exact bind_assoc _ _ _
      replace he' : M.bind _ _ s = .error e := he'
      unfold M.bind at he'
      split at he'
      · rename_i e' hx
        rw [show (lookupLocal nameExport >>= _) s = _ from hx] at this
        exact this
      · rename_i a s' hx
        rw [show (lookupLocal nameExport >>= _) s = _ from hx] at this
        obtain ⟨m, w, -, hs', -⟩ := this
        exact wp_pop (B := fun _ => False) hs' he'
    · have : compileEnd kind s = (popCtx >>= fun c => (pure c.finish : M Bytecode)) s := by
        unfold compileEnd
        cases kind <;> first | rfl | exact absurd rfl hk
      rw [this] at he
      exact wp_pop (B := fun _ => False) hs he
  have body : ∀ (s : CState) n R, Sees s n ⟨startSite kind, [0], 0⟩ R → (visit root >>= fun _ => compileEnd kind) s = .error err →
      Blame (startSite kind) root err := by
    intro s n R hs he
    have hv := vis_expr root n ⟨startSite kind, [0], 0⟩ s R hs
    replace he : M.bind (visit root) (fun _ => compileEnd kind) s = .error err := he
    unfold M.bind at he
    cases hc : visit root s with
    | error e => rw [hc] at he hv; cases he; exact hv
    | ok r =>
      obtain ⟨_, s'⟩ := r
      rw [hc] at he hv
      obtain ⟨m, w, -, hs', rfl⟩ := hv
      exact absurd he (finish _ _ _ hs' _)
  by_cases hk : kind = .module
  · subst hk
    have he : M.bind (addLocal nameExport (.initialized false)) (fun _ => visit root >>= fun _ => compileEnd .module)
        { stack := [{ kind := .module }] } = .error err := hm
    have ha := vis_addLocal (n := 0) (v := ⟨[⟨.module, [{}]⟩], [0], 0⟩) (x := nameExport) (st := .initialized false) (B := fun _ => False)
      _ _ (sees_start .module)
    unfold M.bind at he
    cases hc : addLocal nameExport (.initialized false) { stack := [{ kind := .module }] } with
    | error e => rw [hc] at ha; exact ha.elim
    | ok r =>
      obtain ⟨_, s'⟩ := r
      rw [hc] at he ha
      obtain ⟨m, w, -, hs', rfl⟩ := ha
      exact body s' m _ hs' he
  · have he : (visit root >>= fun _ => compileEnd kind) { stack := [{ kind }] } = .error err := by
      rw [← hm]
      unfold compileM
      cases kind <;> first | rfl | exact absurd rfl hk
    refine body _ 0 [] ?_ he
    have : startSite kind = [⟨kind, [{}]⟩] := by simp [startSite, hk]
    rw [this]
    exact sees_start kind

/-! ## Places of a program -/

/-- In modules the object of the exports is visible, in constructors `self`. -/
def Site.Fine (q : Site) : Prop :=
  (q.kind = some .module → q.lookupHere nameExport ≠ none) ∧ (q.kind = some .constructor → q.lookupHere nameSelf ≠ none)

theorem Site.Fine.grows {p q : Site} (h : p.Fine) (hg : Grows p q) : q.Fine :=
  ⟨fun hk => hg.visible (h.1 (hg.kind ▸ hk)), fun hk => hg.visible (h.2 (hg.kind ▸ hk))⟩

theorem enter_kind (p : Site) (l : Option Bool) : (p.enter l).kind = p.kind := by cases p <;> rfl

theorem Site.Fine.enter {p : Site} (h : p.Fine) (l : Option Bool) : (p.enter l).Fine :=
  ⟨fun hk => enter_visible (h.1 (enter_kind p l ▸ hk)), fun hk => enter_visible (h.2 (enter_kind p l ▸ hk))⟩

theorem inList_grows {p q : Site} {es : List Expr} {e : Expr} (h : InList p es q e) : Grows p q := by
  induction h with
  | head => exact .refl _
  | tail _ ih => exact (grows_expr ..).trans ih

theorem memberKind_receiver {d : Bool} {name : String} {args : List FnArg} {c : ClassKind} (h : memberKind d name args = .constructor c) :
    nameSelf ∈ args.map (·.name) := by
  unfold memberKind at h
  split at h
  · split at h
    · rename_i hs
      exact List.mem_cons.2 (.inl hs.symm)
    · cases h
  · cases h

theorem inFn_fine {p q : Site} {k : FnKind} {args : List FnArg} {ret : Option TypeAnn} {body e : Expr} (h : InFn p k args ret body q e)
    (hk : ∀ c, k = .constructor c → nameSelf ∈ args.map (·.name)) : q.Fine := by
  obtain ⟨h⟩ := h
  have hg := (grows_hoist _ _).trans (inList_grows h)
  refine Site.Fine.grows (p := declareParams k args (Site.enter none (⟨fnCompilerKind k ret, [{}]⟩ :: p))) ⟨?_, ?_⟩ hg
  · intro hm
    rw [(grows_params ..).kind] at hm
    cases k <;> cases hm
  · intro hm
    rw [(grows_params ..).kind] at hm
    cases k with
    | constructor c => exact declareAll_visible (b := { depth := 1 }) (bs := [{}]) (hk c rfl) rfl
    | _ => cases hm

theorem classSite_fine {p : Site} (name : String) (base : Option Expr) (h : p.Fine) : (classSite name base p).Fine := by
  have : ((afterOpt base (p.enter none)).declare nameSuper (.local true true)).Fine :=
    ((h.enter none).grows (grows_opt ..)).grows (grows_declare ..)
  unfold classSite
  dsimp only
  split
  · exact this.grows (grows_mark ..)
  · exact this

theorem inside_fine {p q : Site} {e e' : Expr} (h : Inside p e q e') (hp : p.Fine) : q.Fine := by
  cases h with
  | anonFn h => exact inFn_fine h (by simp)
  | fnDecl h => exact inFn_fine h (by simp)
  | opDecl h => exact inFn_fine h (by simp)
  | memberFn hm hp' h => exact inFn_fine h fun c hc => memberKind_receiver hc
  | memberOp hm hp' h => exact inFn_fine h (by simp)
  | object h => exact hp.grows (inList_grows h)
  | list h => exact hp.grows (inList_grows h)
  | assignField h => exact hp.grows (inList_grows h)
  | assignIndex h => exact hp.grows (inList_grows h)
  | binary _ h => exact hp.grows (inList_grows h)
  | pipeline h => exact hp.grows (inList_grows h)
  | isAgain => exact hp.grows (grows_expr ..)
  | base => exact hp.enter _
  | ifExpr h => exact hp.grows (inList_grows h)
  | loop h => exact (((hp.enter _).enter _).grows (grows_hoist ..)).grows (inList_grows h)
  | whileCond => exact hp.enter _
  | whileBody h => exact ((((hp.enter _).grows (grows_expr ..)).enter _).grows (grows_hoist ..)).grows (inList_grows h)
  | rangeBound _ h => exact hp.grows (inList_grows h)
  | rangeBody => exact (((hp.grows (grows_expr ..)).grows (grows_expr ..)).enter _).grows (grows_declare ..)
  | forBody => exact ((hp.grows (grows_expr ..)).enter _).grows (grows_declare ..)
  | block h => exact ((hp.enter _).grows (grows_hoist ..)).grows (inList_grows h)
  | call h => exact hp.grows (inList_grows h)
  | superCall h => exact hp.grows (inList_grows h)
  | index h => exact hp.grows (inList_grows h)
  | _ => exact hp

theorem occurs_fine {kind : CompilerKind} {root : Expr} (hk : kind ≠ .constructor) {q : Site} {e : Expr} (h : OccursIn kind root q e) : q.Fine := by
  unfold OccursIn at h
  induction h with
  | here =>
    refine ⟨?_, fun h => absurd (Option.some.inj h) hk⟩
    intro h
    cases Option.some.inj h
    decide
  | step _ hi ih => exact inside_fine hi ih

/-! ## The rules are exact -/

section
variable {kind : CompilerKind} {root : Expr}

/-- **C15.**  `break` is rejected only outside of loops. -/
theorem break_rejected (h : compile kind root = .error .invalidBreak) : ∃ q, OccursIn kind root q .break_ ∧ q.innerLoop = none := by
  obtain ⟨q, e, ho, hc⟩ := rejected_for_a_reason h
  cases hc with
  | break_ hl => exact ⟨q, ho, hl⟩
  | member _ hb => cases hb

/-- `fn () { break }` in a loop: the loop is not in the same function. -/
example : compile .script (.block [.loop (.block [] (some (.anonFn [] none (.block [] (some .break_)))))] none) = .error .invalidBreak :=
  Findings.compile_error (by decide +kernel)

/-- **C15.**  `continue` is rejected only outside of loops. -/
theorem continue_rejected (h : compile kind root = .error .invalidContinue) :
    ∃ q, OccursIn kind root q .continue_ ∧ q.innerLoop = none := by
  obtain ⟨q, e, ho, hc⟩ := rejected_for_a_reason h
  cases hc with
  | continue_ hl => exact ⟨q, ho, hl⟩
  | member _ hb => cases hb

/-- `if true { continue }` -/
example : compile .script (.ifExpr (.bool true) (.block [] (some .continue_)) none) = .error .invalidContinue :=
  Findings.compile_error (by decide +kernel)

/-- **C15.**  `return` is rejected only outside of functions. -/
theorem return_rejected (h : compile kind root = .error .invalidReturn) : ∃ q r, OccursIn kind root q (.return_ r) ∧
    (∀ t, q.kind ≠ some (.function t)) ∧ (∀ t, q.kind ≠ some (.method t)) ∧ q.kind ≠ some .constructor := by
  obtain ⟨q, e, ho, hc⟩ := rejected_for_a_reason h
  cases hc with
  | return_ h1 h2 h3 => exact ⟨q, _, ho, h1, h2, h3⟩
  | member _ hb => cases hb

/-- `{ return 1 }` in a script. -/
example : compile .script (.block [.return_ (some (.int 1))] none) = .error .invalidReturn :=
  Findings.compile_error (by decide +kernel)

/-- **C15.**  The propagation of errors is rejected only outside of functions and methods. -/
theorem errProp_rejected (h : compile kind root = .error .invalidErrorPropagate) : ∃ q e, OccursIn kind root q (.errProp e) ∧
    (∀ t, q.kind ≠ some (.function t)) ∧ (∀ t, q.kind ≠ some (.method t)) := by
  obtain ⟨q, e, ho, hc⟩ := rejected_for_a_reason h
  cases hc with
  | errProp h1 h2 => exact ⟨q, _, ho, h1, h2⟩
  | member _ hb => cases hb

/-- `f()!!` in a script. -/
example : compile .script (.errProp (.call (.ident "f") [])) = .error .invalidErrorPropagate :=
  Findings.compile_error (by decide +kernel)

/-- **C15.**  `export` is rejected only outside of modules or in a nested block. -/
theorem export_rejected (h : compile kind root = .error .invalidExport) : ∃ q e, OccursIn kind root q (.exportDecl e) ∧
    (q.kind = some .module → 1 < q.depth) := by
  obtain ⟨q, e, ho, hc⟩ := rejected_for_a_reason h
  cases hc with
  | export_ h1 => exact ⟨q, _, ho, h1⟩
  | member _ hb => cases hb

/-- `{ export let x = 1 }` in a block of a module. -/
example : compile .module (.block [.block [.exportDecl (.varDecl (.singular "x") false (.int 1) none)] none] none) = .error .invalidExport :=
  Findings.compile_error (by decide +kernel)

/-- **C15.**  `super.f` is rejected only outside of methods and constructors. -/
theorem superAccess_rejected (h : compile kind root = .error .invalidSuperCall) : ∃ q f c, OccursIn kind root q (.superAccess f c) ∧
    (∀ t, q.kind ≠ some (.method t)) ∧ q.kind ≠ some .constructor := by
  obtain ⟨q, e, ho, hc⟩ := rejected_for_a_reason h
  cases hc with
  | superAccess h1 h2 => exact ⟨q, _, _, ho, h1, h2⟩
  | member _ hb => cases hb

/-- `fn () super.f` -/
example : compile .script (.anonFn [] none (.superAccess "f" none)) = .error .invalidSuperCall :=
  Findings.compile_error (by decide +kernel)

/-- **C13.**  An assignment is rejected as a reassignment only if the name stands for something immutable. -/
theorem reassignment_rejected {x : String} (h : compile kind root = .error (.cannotReassign x)) :
    ∃ q op rhs n, OccursIn kind root q (.assign op (.ident x) rhs) ∧ q.lookup x = some n ∧ n.isMutable = false := by
  obtain ⟨q, e, ho, hc⟩ := rejected_for_a_reason h
  cases hc with
  | immutable h1 h2 => exact ⟨q, _, _, _, ho, h1, h2⟩
  | member _ hb => cases hb

/-- `let x = 1; fn () { x = 2 }` -/
example : compile .script (.block [.varDecl (.singular "x") false (.int 1) none]
    (some (.anonFn [] none (.assign .assign (.ident "x") (.int 2))))) = .error (.cannotReassign "x") :=
  Findings.compile_error (by decide +kernel)

/-- **C13.**  A name is reported as undeclared only if an assignment stands where no function around it declares the name. -/
theorem undeclared_rejected {x : String} (h : compile kind root = .error (.notDeclared x)) :
    ∃ q op rhs, OccursIn kind root q (.assign op (.ident x) rhs) ∧ q.lookup x = none := by
  obtain ⟨q, e, ho, hc⟩ := rejected_for_a_reason h
  cases hc with
  | unknown h1 => exact ⟨q, _, _, ho, h1⟩
  | member _ hb => cases hb

/-- `{ let mut x = 1; } x = 2` -/
example : compile .script (.block [.block [.varDecl (.singular "x") true (.int 1) none] none]
    (some (.assign .assign (.ident "x") (.int 2)))) = .error (.notDeclared "x") :=
  Findings.compile_error (by decide +kernel)

/-- A function is reported as declared twice only where the name stands for a function whose declaration has been passed. -/
theorem functionTwice_rejected {x : String} (h : compile kind root = .error (.functionAlreadyDeclared x)) :
    ∃ q args ret body, OccursIn kind root q (.fnDecl x args ret body) ∧ q.lookupHere x = some ⟨x, .function true⟩ := by
  obtain ⟨q, e, ho, hc⟩ := rejected_for_a_reason h
  cases hc with
  | functionTwice h1 => exact ⟨q, _, _, _, ho, h1⟩
  | member _ hb => cases hb

/-- `fn f() 1; fn f() 2` -/
example : compile .script (.block [.fnDecl "f" [] none (.int 1), .fnDecl "f" [] none (.int 2)] none) =
    .error (.functionAlreadyDeclared "f") :=
  Findings.compile_error (by decide +kernel)

end

/-! ## Panics -/

/-- What makes the compiler panic, and with which message. -/
inductive PanicCause (q : Site) : Expr → String → Prop where
  /-- A loop whose jump back spans exactly 32768 bytes. -/
  | longLoop {e} (h : e.jumpsBack = true) : PanicCause q e "jump_back"
  /-- `super(…)` where the function does not see `self`. -/
  | superCall {es} (h : q.lookupHere nameSelf = none) : PanicCause q (.superCall es) "self should always be declared in constructors."
  /-- `export` of something that has no single name. -/
  | exportNode {e} (h : e.exportable = false) : PanicCause q (.exportDecl e) "Invalid export node type encountered."
  /-- A function whose name stands for a variable or a class at its declaration. -/
  | hiddenFunction {name args ret body n} (h : q.lookupHere name = some n) (hn : ∀ b, n.state ≠ .function b) :
      PanicCause q (.fnDecl name args ret body) "Unexpected non-function local state while compiling a function."
  /-- A member of a class that is neither a function nor an operator. -/
  | member {name base items e} (he : e ∈ items) (hf : ∀ n a r b, e ≠ .fnDecl n a r b) (ho : ∀ n a r b, e ≠ .opDecl n a r b) :
      PanicCause q (.classDecl name base items) "Unexpected node kind encountered."

/-- **C16 (partial).**  The compiler panics only for the listed reasons.  Missing from C16: four of the five reasons are in programs
that can be written, so the compiler does panic (`Findings.compiler_panics_super_call` and others). -/
theorem panic_causes_partial {kind : CompilerKind} {root : Expr} {msg : String} (hk : kind ≠ .constructor)
    (h : compile kind root = .error (.panic msg)) : ∃ q e, OccursIn kind root q e ∧ PanicCause q e msg := by
  obtain ⟨q, e, ho, hc⟩ := rejected_for_a_reason h
  refine ⟨q, e, ho, ?_⟩
  clear h
  have hf := occurs_fine hk ho
  cases hc with
  | jumpBack h => exact .longLoop h
  | returnSelf h1 h2 => exact absurd h2 (hf.2 h1)
  | exportObject h1 h2 => exact absurd h2 (hf.1 h1)
  | exportNode h => exact .exportNode h
  | superCall h => exact .superCall h
  | functionHidden h1 h2 => exact .hiddenFunction h1 h2
  | member he hb =>
    cases hb with
    | other h1 h2 => exact .member he h1 h2

/-- `class f {}; fn f() 1`: the function is hidden by the class. -/
example : compile .script (.block [.fnDecl "f" [] none (.int 1), .classDecl "f" none []] none) =
    .error (.panic "Unexpected non-function local state while compiling a function.") :=
  Findings.compile_error (by decide +kernel)

/-- What makes the compiler report an internal error. -/
inductive InternalCause (q : Site) : Expr → Prop where
  /-- `continue` in a `for` loop. -/
  | continueFor (h : q.innerLoop = some false) : InternalCause q .continue_
  /-- A function or a class that no block declares. -/
  | function {name args ret body} (h : q.lookupHere name = none) : InternalCause q (.fnDecl name args ret body)
  | class {name base items}
      (h : ((afterOpt base (q.enter none)).declare nameSuper (.local true true)).lookupHere name = none) :
      InternalCause q (.classDecl name base items)
  | loop {e} (h : e.isBlock = false) : InternalCause q (.loop e)
  | whileLoop {c e} (h : e.isBlock = false) : InternalCause q (.whileLoop c e)

/-- **C16 (partial).**  The compiler reports an internal error only for the listed reasons. -/
theorem internal_causes_partial {kind : CompilerKind} {root : Expr} (h : compile kind root = .error .internal) :
    ∃ q e, OccursIn kind root q e ∧ InternalCause q e := by
  obtain ⟨q, e, ho, hc⟩ := rejected_for_a_reason h
  refine ⟨q, e, ho, ?_⟩
  cases hc with
  | continueFor h => exact .continueFor h
  | functionUnknown h => exact .function h
  | classUnknown h => exact .class h
  | loopBody h => exact .loop h
  | whileBody h => exact .whileLoop h
  | member _ hb => cases hb

/-- `for x in xs { continue }` -/
example : compile .script (.forLoop "x" (.ident "xs") (.block [.continue_] none)) = .error .internal :=
  Findings.compile_error (by decide +kernel)

end Dice
