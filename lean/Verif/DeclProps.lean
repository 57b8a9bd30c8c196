import Verif.StaticProps
import Verif.RejectProps

/-!
# C50: declarations are well formed

What the declarations of functions, operators and classes in an accepted program look like, and that nothing else about them
is rejected.
-/

namespace Dice

/-- What a member of a class may look like; `derived` tells whether the class has a base class. -/
inductive ProperMember (derived : Bool) : Expr → Prop where
  /-- A constructor has an untyped receiver and no result type, and calls the base constructor first if there is one. -/
  | constructor {a : FnArg} {args : List FnArg} {body : Expr} (ha : a.name = nameSelf) (ht : a.type_ = none)
      (hu : ((a :: args).map FnArg.name).Nodup) (hs : derived = true → body.startsWithSuper = true) :
      ProperMember derived (.fnDecl nameNew (a :: args) none body)
  | method {name : String} {a : FnArg} {args : List FnArg} {ret : Option TypeAnn} {body : Expr} (hn : name ≠ nameNew)
      (ha : a.name = nameSelf) (ht : a.type_ = none) (hu : ((a :: args).map FnArg.name).Nodup) :
      ProperMember derived (.fnDecl name (a :: args) ret body)
  | static {name : String} {args : List FnArg} {ret : Option TypeAnn} {body : Expr} (hn : name ≠ nameNew)
      (ha : ∀ a, args.head? = some a → a.name ≠ nameSelf) (hu : (args.map FnArg.name).Nodup) :
      ProperMember derived (.fnDecl name args ret body)
  | operator {op : OverOp} {a : FnArg} {args : List FnArg} {ret : Option TypeAnn} {body : Expr}
      (ha : a.name = nameSelf) (ht : a.type_ = none) (hu : ((a :: args).map FnArg.name).Nodup) :
      ProperMember derived (.opDecl op (a :: args) ret body)

/-- A member is proper if and only if nothing is wrong with it. -/
theorem proper_iff {derived : Bool} {e : Expr} : ProperMember derived e ↔ ∀ err, ¬ BadMember derived e err := by
  constructor
  · intro h err hb
    cases h with
    | constructor ha ht hu hs =>
      cases hb with
      | duplicate h => exact h hu
      | receiverType h h' => rw [ht] at h'; cases h'
      | noReceiver h => simp [hasReceiver, ha] at h
      | newResult h h' => cases h'
      | newSuper hd h h' => rw [hs hd] at h'; cases h'
      | other hf ho => exact hf _ _ _ _ rfl
    | method hn ha ht hu =>
      cases hb with
      | duplicate h => exact h hu
      | receiverType h h' => rw [ht] at h'; cases h'
      | noReceiver h => exact hn rfl
      | newResult h h' => exact hn rfl
      | newSuper hd h h' => exact hn rfl
      | other hf ho => exact hf _ _ _ _ rfl
    | static hn ha hu =>
      cases hb with
      | duplicate h => exact h hu
      | receiverType h h' => exact ha _ rfl h
      | noReceiver h => exact hn rfl
      | newResult h h' => exact hn rfl
      | newSuper hd h h' => exact hn rfl
      | other hf ho => exact hf _ _ _ _ rfl
    | operator ha ht hu =>
      cases hb with
      | duplicateOp h => exact h hu
      | receiverTypeOp h h' => rw [ht] at h'; cases h'
      | noReceiverOp h => simp [hasReceiver, ha] at h
      | other hf ho => exact ho _ _ _ _ rfl
  · intro h
    cases e
    case fnDecl name args ret body =>
      have hu : (args.map FnArg.name).Nodup := Classical.byContradiction fun hn => h _ (.duplicate hn)
      by_cases hn : name = nameNew
      · subst hn
        cases args with
        | nil => exact absurd (.noReceiver rfl) (h _)
        | cons a args =>
          by_cases ha : a.name = nameSelf
          · have hr : hasReceiver (a :: args) = true := by simp [hasReceiver, ha]
            have ht : a.type_ = none := by
              cases ht : a.type_ with
              | none => rfl
              | some t => exact absurd (.receiverType ha (by rw [ht]; rfl)) (h _)
            cases ret with
            | some t => exact absurd (.newResult hr rfl) (h _)
            | none =>
              refine .constructor ha ht hu fun hd => ?_
              cases hs : body.startsWithSuper with
              | true => rfl
              | false => exact absurd (.newSuper hd hr hs) (h _)
          · exact absurd (.noReceiver (by simp [hasReceiver, ha])) (h _)
      · cases args with
        | nil => exact .static hn (fun _ h => by cases h) hu
        | cons a args =>
          by_cases ha : a.name = nameSelf
          · refine .method hn ha ?_ hu
            cases ht : a.type_ with
            | none => rfl
            | some t => exact absurd (.receiverType ha (by rw [ht]; rfl)) (h _)
          · exact .static hn (fun b hb => by cases hb; exact ha) hu
    case opDecl op args ret body =>
      have hu : (args.map FnArg.name).Nodup := Classical.byContradiction fun hn => h _ (.duplicateOp hn)
      cases args with
      | nil => exact absurd (.noReceiverOp rfl) (h _)
      | cons a args =>
        by_cases ha : a.name = nameSelf
        · refine .operator ha ?_ hu
          cases ht : a.type_ with
          | none => rfl
          | some t => exact absurd (.receiverTypeOp ha (by rw [ht]; rfl)) (h _)
        · exact absurd (.noReceiverOp (by simp [hasReceiver, ha])) (h _)
    all_goals exact absurd (.other (fun _ _ _ _ h => by cases h) (fun _ _ _ _ h => by cases h)) (h _)

theorem startsWithSuper_body {body : Expr} (h : startsWithSuperCall (bodyExprs body) (bodyTrailing body) = true) :
    body.startsWithSuper = true := by
  unfold startsWithSuperCall at h
  split at h
  · rename_i es rest ht he
    cases body
    case block es t =>
      cases he
      rfl
    all_goals simp [bodyExprs] at he
  · rename_i he ht
    cases body
    case block es t =>
      cases he
      cases ht
      rfl
    case superCall => rfl
    all_goals simp [bodyTrailing] at ht
  · cases h

theorem Gen.member_proper {derived : Bool} {items : List Expr} {slot : Nat} : ∀ {g g' : Env} {c : Code} {e : Expr},
    Gen g (.cls (if derived then .derived else .base) items slot) c g' → e ∈ items → ProperMember derived e := by
  induction items with
  | nil => intro _ _ _ _ _ h; cases h
  | cons d items ih =>
    intro g g' c e h hm
    cases h with
    | clsFn hk hr hu hb hc h2 =>
      rcases List.mem_cons.1 hm with h | h
      · subst h
        rename_i name args ret body _ _ fk _ _ _
        refine proper_iff.2 fun err hbad => ?_
        have hkk := classFnKind_memberKind hk
        cases hbad with
        | duplicate h => exact h hu
        | receiverType h h' =>
          unfold classFnKind at hk
          simp only [List.head?_cons, Option.filter_some, h, beq_self_eq_true, if_true, h'] at hk
          cases hk
        | noReceiver h =>
          cases args with
          | nil => simp [classFnKind] at hk
          | cons a args =>
            unfold classFnKind at hk
            simp only [List.head?_cons, Option.filter_some, (show (a.name == nameSelf) = false from h), beq_self_eq_true, if_true,
              Bool.false_eq_true, if_false] at hk
            cases hk
        | newResult h h' =>
          cases args with
          | nil => cases h
          | cons a args =>
            have ha : a.name = nameSelf := by simpa [hasReceiver] using h
            simp only [memberKind, ha, if_true] at hkk
            rw [hr _ hkk] at h'
            cases h'
        | newSuper hd h h' =>
          cases args with
          | nil => cases h
          | cons a args =>
            have ha : a.name = nameSelf := by simpa [hasReceiver] using h
            subst hd
            simp only [memberKind, ha, if_true] at hkk
            cases hb with
            | fnBody hsup =>
              rw [startsWithSuper_body (hsup hkk)] at h'
              cases h'
        | other hf ho => exact hf _ _ _ _ rfl
      · exact ih h2 h
    | clsOp ha hat hu hb hc h2 =>
      rcases List.mem_cons.1 hm with h | h
      · subst h
        rename_i args _ _ _ _ _ _ _ _
        cases args with
        | nil => cases ha
        | cons b args =>
          by_cases hb : b.name = nameSelf
          · simp [Option.filter, hb] at ha
            subst ha
            exact .operator hb hat hu
          · simp [Option.filter, hb] at ha
      · exact ih h2 h

section
variable {kind : CompilerKind} {root : Expr} {bc : Bytecode}

/-- **C50.**  In an accepted program the members of classes are proper. -/
theorem members_are_proper (h : compile kind root = .ok bc) {q : Site} {name : String} {base : Option Expr} {items : List Expr}
    (ho : OccursIn kind root q (.classDecl name base items)) {e : Expr} (he : e ∈ items) : ProperMember base.isSome e := by
  obtain ⟨g, c, g', h, rfl⟩ := compiled_occurs h ho
  cases h with
  | classDecl _ _ _ _ _ _ hi _ => exact hi.member_proper he
  | chain he => cases he

/-- **C50.**  In an accepted program the first thing a constructor of a derived class does is to call the base constructor. -/
theorem derived_constructors_call_super_first (h : compile kind root = .ok bc) {q : Site} {name : String} {base : Expr}
    {items : List Expr} (ho : OccursIn kind root q (.classDecl name (some base) items)) {args : List FnArg}
    {ret : Option TypeAnn} {body : Expr} (he : .fnDecl nameNew args ret body ∈ items) :
    ∃ es, body = .superCall es ∨ body = .block [] (some (.superCall es)) ∨ ∃ rest t, body = .block (.superCall es :: rest) t := by
  have := members_are_proper h ho he
  cases this with
  | constructor ha ht hu hs =>
    have hs := hs rfl
    unfold Expr.startsWithSuper at hs
    split at hs
    · exact ⟨_, .inr (.inr ⟨_, _, rfl⟩)⟩
    · exact ⟨_, .inr (.inl rfl)⟩
    · exact ⟨_, .inl rfl⟩
    · cases hs
  | method hn => exact absurd rfl hn
  | static hn => exact absurd rfl hn

/-- **C50.**  In an accepted program the parameters of a function declaration have different names.
(Those of a closure need not: `|x, x| x` is accepted.) -/
theorem function_parameters_distinct (h : compile kind root = .ok bc) {q : Site} {name : String} {args : List FnArg}
    {ret : Option TypeAnn} {body : Expr} (ho : OccursIn kind root q (.fnDecl name args ret body)) :
    (args.map FnArg.name).Nodup := by
  obtain ⟨g, c, g', h, rfl⟩ := compiled_occurs h ho
  cases h with
  | fnDecl hu => exact hu
  | chain he => cases he

/-- **C50.**  The same for the declarations of operators. -/
theorem operator_parameters_distinct (h : compile kind root = .ok bc) {q : Site} {op : OverOp} {args : List FnArg}
    {ret : Option TypeAnn} {body : Expr} (ho : OccursIn kind root q (.opDecl op args ret body)) :
    (args.map FnArg.name).Nodup := by
  obtain ⟨g, c, g', h, rfl⟩ := compiled_occurs h ho
  cases h with
  | opDecl hu => exact hu
  | chain he => cases he

/-! ### Accepted programs are blameless -/

/-- The limits of the format (more than 256 constants or captured variables, jumps over 32768 bytes), and names that are used
before their declaration, for which `Culprit` only tells where they are used. -/
def CErr.vague : CErr → Prop
  | .tooManyConstants | .tooManyUpvalues | .notInitialized _ => True
  | .panic msg => msg = "jump_back"
  | _ => False

theorem exportName_exportable {e : Expr} {n : String} (h : exportName e = some n) : e.exportable = true := by
  unfold exportName at h
  split at h <;> first | rfl | cases h

theorem lookup_name {g : Env} {x : String} {v : ScopeVar} (h : g.lookup x = some v) : v.name = x := by
  cases g with
  | nil => cases h
  | cons c g => simpa using List.find?_some (show List.find? _ _ = some v from h)

/-- Where a function is declared, its name stands for a function whose declaration has not been passed. -/
theorem function_awaits {q : Site} {name : String} {args : List FnArg} {ret : Option TypeAnn} {body : Expr}
    (h : CompiledAt q (.fnDecl name args ret body)) : q.lookupHere name = some ⟨name, .function false⟩ := by
  obtain ⟨g, c, g', h, rfl⟩ := h
  cases h with
  | fnDecl hu hb hc hv hs =>
    rw [← place_fn hb, lookupHere_place, hv]
    show some (ScopeVar.toName _) = _
    unfold ScopeVar.toName
    rw [lookup_name hv, hs]
  | chain he => cases he

/-- Where a class is declared, its name stands for something that is no class whose declaration has been passed. -/
theorem class_awaits {q : Site} {name : String} {base : Option Expr} {items : List Expr}
    (h : CompiledAt q (.classDecl name base items)) :
    ∃ n, ((afterOpt base (q.enter none)).declare nameSuper (.local true true)).lookupHere name = some n ∧ n.state ≠ .class true := by
  obtain ⟨g, c, g', h, rfl⟩ := h
  cases h with
  | classDecl h0 hb hsup hv hs =>
    have hp := place_addLocal hsup
    rw [hb.place, place_pushScope h0] at hp
    refine ⟨ScopeVar.toName _, ?_, hs⟩
    rw [show Site.declare nameSuper (.local true true) (afterOpt base (g.place.enter none)) = _ from hp.symm, lookupHere_place, hv]
    rfl
  | chain he => cases he

/-- **C50, C15.**  An accepted program contains nothing for which a program is rejected (`rejected_for_a_reason`), except what
is only a limit.  So `Culprit` tells exactly what is wrong with the programs that are rejected. -/
theorem accepted_is_blameless (h : compile kind root = .ok bc) {q : Site} {e : Expr} (ho : OccursIn kind root q e) {err : CErr}
    (hc : Culprit q e err) : err.vague := by
  have hcs := compiled_occurs h ho
  cases hc with
  | constants => trivial
  | upvalues => trivial
  | notReady => trivial
  | jumpBack => rfl
  | break_ hl => exact absurd hl (breaks_in_loops h ho)
  | continue_ hl => rw [continues_in_loops h ho] at hl; cases hl
  | continueFor hl => rw [continues_in_loops h ho] at hl; cases hl
  | return_ hf hm hk =>
    rcases returns_in_functions h ho with ⟨r, h | h⟩ | ⟨h, _⟩
    · exact absurd h (hf _)
    · exact absurd h (hm _)
    · exact absurd h hk
  | returnValue hk =>
    rcases returns_in_functions h ho with ⟨r, h | h⟩ | ⟨_, h⟩
    · rw [hk] at h; cases h
    · rw [hk] at h; cases h
    · cases h
  | returnSelf hk hs =>
    obtain ⟨g, c, g', h, rfl⟩ := hcs
    rw [place_kind] at hk
    cases h with
    | returnUnit hk' hf => obtain ⟨r, rfl | rfl⟩ := hf <;> rw [hk] at hk' <;> cases hk'
    | returnSelf hk' hv => rw [lookupHere_place, hv] at hs; cases hs
    | chain he => cases he
  | errProp hf hm =>
    obtain ⟨r, h | h⟩ := errProps_in_functions h ho
    · exact absurd h (hf _)
    · exact absurd h (hm _)
  | export_ hk =>
    obtain ⟨h1, h2⟩ := exports_at_top_level h ho
    have := hk h1
    omega
  | exportObject hk hx =>
    obtain ⟨g, c, g', h, rfl⟩ := hcs
    cases h with
    | exportDecl _ _ _ hv => rw [lookupHere_place, hv] at hx; cases hx
    | chain he => cases he
  | exportNode hx =>
    obtain ⟨g, c, g', h, rfl⟩ := hcs
    cases h with
    | exportDecl _ _ _ _ _ hn => rw [exportName_exportable hn] at hx; cases hx
    | chain he => cases he
  | superAccess hm hk =>
    rcases superAccesses_in_methods h ho with ⟨r, h⟩ | h
    · exact absurd h (hm _)
    · exact absurd h hk
  | superCall hs => exact absurd hs (superCalls_see_self_partial h ho)
  | immutable hn hm =>
    obtain ⟨n, h1, h2⟩ := assigned_variables_are_mutable h ho
    rw [hn] at h1
    cases h1
    rw [hm] at h2
    cases h2
  | unknown hn =>
    obtain ⟨n, h1, _⟩ := assigned_variables_are_mutable h ho
    rw [hn] at h1
    cases h1
  | target ht =>
    obtain ⟨g, c, g', h, rfl⟩ := hcs
    cases h with
    | chain he => cases he
    | _ => cases ht
  | functionTwice hl =>
    rw [function_awaits hcs] at hl
    cases hl
  | functionHidden hl hn =>
    rw [function_awaits hcs] at hl
    cases hl
    exact absurd rfl (hn _)
  | functionUnknown hl =>
    rw [function_awaits hcs] at hl
    cases hl
  | duplicate hn => exact absurd (function_parameters_distinct h ho) hn
  | duplicateOp hn => exact absurd (operator_parameters_distinct h ho) hn
  | classTwice hl =>
    obtain ⟨n, hn, hs⟩ := class_awaits hcs
    rw [hn] at hl
    cases hl
    exact absurd rfl hs
  | classUnknown hl =>
    obtain ⟨n, hn, hs⟩ := class_awaits hcs
    rw [hn] at hl
    cases hl
  | member he hb => exact absurd hb (proper_iff.1 (members_are_proper h ho he) _)
  | loopBody hb =>
    obtain ⟨g, c, g', h, rfl⟩ := hcs
    cases h with
    | loop => cases hb
    | chain he => cases he
  | whileBody hb =>
    obtain ⟨g, c, g', h, rfl⟩ := hcs
    cases h with
    | whileLoop => cases hb
    | chain he => cases he

/-! ### Nothing else about declarations is rejected -/

/-- **C50.**  Parameters are rejected only if two of them have the same name. -/
theorem duplicateArgs_rejected (h : compile kind root = .error .duplicateArgs) : ∃ q e args, OccursIn kind root q e ∧
    ¬ (args.map FnArg.name).Nodup ∧ ((∃ n r b, e = .fnDecl n args r b) ∨ (∃ o r b, e = .opDecl o args r b) ∨
      ∃ n base items, e = .classDecl n base items ∧ ((∃ n r b, .fnDecl n args r b ∈ items) ∨ ∃ o r b, .opDecl o args r b ∈ items)) := by
  obtain ⟨q, e, ho, hc⟩ := rejected_for_a_reason h
  cases hc with
  | duplicate hn => exact ⟨q, _, _, ho, hn, .inl ⟨_, _, _, rfl⟩⟩
  | duplicateOp hn => exact ⟨q, _, _, ho, hn, .inr (.inl ⟨_, _, _, rfl⟩)⟩
  | member he hb =>
    cases hb with
    | duplicate hn => exact ⟨q, _, _, ho, hn, .inr (.inr ⟨_, _, _, rfl, .inl ⟨_, _, _, he⟩⟩)⟩
    | duplicateOp hn => exact ⟨q, _, _, ho, hn, .inr (.inr ⟨_, _, _, rfl, .inr ⟨_, _, _, he⟩⟩)⟩

/-- **C50.**  The missing call of the base constructor is reported only for a constructor of a derived class that does not
start with it. -/
theorem newMustCallSuper_rejected (h : compile kind root = .error .newMustCallSuper) : ∃ q name base items args ret body,
    OccursIn kind root q (.classDecl name (some base) items) ∧ .fnDecl nameNew args ret body ∈ items ∧
      body.startsWithSuper = false := by
  obtain ⟨q, e, ho, hc⟩ := rejected_for_a_reason h
  cases hc with
  | member he hb =>
    rename_i name base items e
    cases hb with
    | newSuper hd _ hs =>
      cases base with
      | none => cases hd
      | some base => exact ⟨q, name, base, items, _, _, _, ho, he, hs⟩

end

/-! ### Examples -/

section

/-- `class B: A { fn new(self, x) { super(x) }  op +(self, y) { y }  fn make(x) { x } }` after `class A { fn new(self, x) {} }` -/
def exampleClass (first : Expr) : Expr :=
  .classDecl "B" (some (.ident "A")) [
    .fnDecl "new" [⟨"self", none⟩, ⟨"x", none⟩] none (.block [first, .superCall [.ident "x"]] none),
    .opDecl .add [⟨"self", none⟩, ⟨"y", none⟩] none (.block [] (some (.ident "y"))),
    .fnDecl "make" [⟨"x", none⟩] none (.block [] (some (.ident "x")))]

def exampleClasses (first : Expr) : Expr :=
  .block [.classDecl "A" none [.fnDecl "new" [⟨"self", none⟩, ⟨"x", none⟩] none (.block [] none)], exampleClass first] none

/-- Accepted if the first statement of the constructor calls the base constructor, -/
example : (∃ bc, compile .script (exampleClasses (.superCall [.int 1])) = .ok bc) ∧
    ∃ q, OccursIn .script (exampleClasses (.superCall [.int 1])) q (exampleClass (.superCall [.int 1])) :=
  ⟨accepted (by decide +kernel), _, .step .here (.block (.tail .head))⟩

/-- and not if only the second one does. -/
example : compile .script (exampleClasses (.int 1)) = .error .newMustCallSuper := Findings.compile_error (by decide +kernel)

example : compile .script (.block [.fnDecl "f" [⟨"x", none⟩, ⟨"y", none⟩, ⟨"x", none⟩] none (.block [] none)] none) =
    .error .duplicateArgs := Findings.compile_error (by decide +kernel)

example : (∃ bc, compile .script (.block [.fnDecl "f" [⟨"x", none⟩, ⟨"y", none⟩] none (.block [] none),
      .opDecl .add [⟨"x", none⟩, ⟨"y", none⟩] none (.block [] none)] none) = .ok bc) := accepted (by decide +kernel)

/-- **Finding.**  The parameters of a closure may have the same name. -/
theorem closure_parameters_may_coincide : ∃ bc, compile .script (.anonFn [⟨"x", none⟩, ⟨"x", none⟩] none (.ident "x")) = .ok bc :=
  accepted (by decide +kernel)

end

end Dice
