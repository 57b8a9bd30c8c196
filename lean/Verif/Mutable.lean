import Verif.RejectProps

/-!
# Mutable variables can be reassigned

`let mut` lets a variable be assigned to: where all declarations of a name are of this form, no assignment to the name is
rejected as a reassignment.  The compiler ignores the word in a declaration that takes an object apart
(dice-compiler/src/visitor/decl_var.rs:49-59).
-/

namespace Dice

mutual

/-- The only declarations of `x` in the expression are `let mut x`. -/
def onlyMut (x : String) : Expr → Bool
  | .varDecl (.singular y) m e _ => (y != x || m) && onlyMut x e
  | .varDecl (.destructured ys) _ e _ => ys.all (· != x) && onlyMut x e
  | .importDecl m ys _ => ys.all (· != x) && m.toList.all (· != x)
  | .anonFn args _ b => (args.map (·.name)).all (· != x) && onlyMut x b
  | .fnDecl y args _ b => y != x && (args.map (·.name)).all (· != x) && onlyMut x b
  | .opDecl _ args _ b => (args.map (·.name)).all (· != x) && onlyMut x b
  | .classDecl y b items => y != x && onlyMutOpt x b && onlyMutMembers x items
  | .exportDecl e => onlyMut x e
  | .forLoop y e b => y != x && onlyMut x e && onlyMut x b
  | .object fs => onlyMutFields x fs
  | .list es => onlyMutAll x es
  | .assign _ t e => onlyMut x t && onlyMut x e
  | .unary _ e => onlyMut x e
  | .binary _ a b => onlyMut x a && onlyMut x b
  | .ifExpr a b e => onlyMut x a && onlyMut x b && onlyMutOpt x e
  | .loop e => onlyMut x e
  | .whileLoop a b => onlyMut x a && onlyMut x b
  | .block es t => onlyMutAll x es && onlyMutOpt x t
  | .return_ e => onlyMutOpt x e
  | .field e _ => onlyMut x e
  | .index e i => onlyMut x e && onlyMut x i
  | .call e es => onlyMut x e && onlyMutAll x es
  | .superCall es => onlyMutAll x es
  | .is e _ => onlyMut x e
  | .nullProp e => onlyMut x e
  | .errProp e => onlyMut x e
  | _ => true

def onlyMutAll (x : String) : List Expr → Bool
  | [] => true
  | e :: es => onlyMut x e && onlyMutAll x es

def onlyMutFields (x : String) : List (String × Expr) → Bool
  | [] => true
  | f :: fs => onlyMut x f.2 && onlyMutFields x fs

def onlyMutOpt (x : String) : Option Expr → Bool
  | none => true
  | some e => onlyMut x e

/-- The names of the members of a class are not variables. -/
def onlyMutMembers (x : String) : List Expr → Bool
  | [] => true
  | .fnDecl _ args _ b :: es => (args.map (·.name)).all (· != x) && onlyMut x b && onlyMutMembers x es
  | e :: es => onlyMut x e && onlyMutMembers x es

end

/-- Every visible declaration of `x` is of a mutable variable. -/
structure Site.Changeable (x : String) (p : Site) : Prop where
  all : ∀ f ∈ p, ∀ b ∈ f.blocks, ∀ n ∈ b.names, n.name = x → n.isMutable = true

namespace Site.Changeable

variable {x y : String} {p : Site}

theorem cons_iff {f : FnSite} : Changeable x (f :: p) ↔
    (∀ b ∈ f.blocks, ∀ n ∈ b.names, n.name = x → n.isMutable = true) ∧ Changeable x p := by
  constructor
  · intro h
    exact ⟨h.all f (List.mem_cons_self ..), ⟨fun g hg => h.all g (List.mem_cons_of_mem _ hg)⟩⟩
  · rintro ⟨h1, h2⟩
    refine ⟨fun g hg => ?_⟩
    rcases List.mem_cons.1 hg with rfl | hg
    · exact h1
    · exact h2.all g hg

theorem enter (h : Changeable x p) (l : Option Bool) : Changeable x (p.enter l) := by
  cases p with
  | nil => exact h
  | cons f p =>
    obtain ⟨h1, h2⟩ := cons_iff.1 h
    refine cons_iff.2 ⟨fun b hb => ?_, h2⟩
    rcases List.mem_cons.1 hb with rfl | hb
    · intro n hn
      cases hn
    · exact h1 b hb

theorem leave (h : Changeable x p) : Changeable x p.leave := by
  cases p with
  | nil => exact h
  | cons f p =>
    obtain ⟨h1, h2⟩ := cons_iff.1 h
    exact cons_iff.2 ⟨fun b hb => h1 b (List.mem_of_mem_tail hb), h2⟩

theorem declare (h : Changeable x p) {st : VarState} (hy : y = x → Name.isMutable ⟨y, st⟩ = true) :
    Changeable x (p.declare y st) := by
  cases p with
  | nil => exact h
  | cons f p =>
    obtain ⟨h1, h2⟩ := cons_iff.1 h
    obtain ⟨k, bs⟩ := f
    cases bs with
    | nil => exact cons_iff.2 ⟨fun b hb => (by cases hb), h2⟩
    | cons b bs =>
      refine cons_iff.2 ⟨fun c hc => ?_, h2⟩
      rcases List.mem_cons.1 hc with rfl | hc
      · intro n hn
        rcases List.mem_cons.1 hn with rfl | hn
        · exact hy
        · exact h1 b (List.mem_cons_self ..) n hn
      · exact h1 c (List.mem_cons_of_mem _ hc)

theorem other (h : Changeable x p) {st : VarState} (hy : (y != x) = true) : Changeable x (p.declare y st) :=
  h.declare fun e => by simp [e] at hy

theorem declareAll (ys : List String) : ∀ {p : Site}, Changeable x p → ys.all (· != x) = true → Changeable x (p.declareAll ys) := by
  induction ys with
  | nil => exact fun h _ => h
  | cons y ys ih =>
    intro p h hy
    simp only [List.all_cons, Bool.and_eq_true] at hy
    exact ih (h.other hy.1) hy.2

theorem markNames {st : VarState} (hy : (y != x) = true) (ns : List Name) (h : ∀ n ∈ ns, n.name = x → n.isMutable = true) :
    ∀ n ∈ Site.markNames y st ns, n.name = x → n.isMutable = true := by
  induction ns with
  | nil => exact h
  | cons m ns ih =>
    unfold Site.markNames
    split
    case isTrue hm =>
      intro n hn
      rcases List.mem_cons.1 hn with rfl | hn
      · intro (e : m.name = x)
        simp only [beq_iff_eq] at hm
        rw [← hm, e] at hy
        simp at hy
      · exact h n (List.mem_cons_of_mem _ hn)
    case isFalse =>
      intro n hn
      rcases List.mem_cons.1 hn with rfl | hn
      · exact h _ (List.mem_cons_self ..)
      · exact ih (fun n hn => h n (List.mem_cons_of_mem _ hn)) n hn

theorem markBlocks {st : VarState} (hy : (y != x) = true) (bs : List BlockSite)
    (h : ∀ b ∈ bs, ∀ n ∈ b.names, n.name = x → n.isMutable = true) :
    ∀ b ∈ Site.markBlocks y st bs, ∀ n ∈ b.names, n.name = x → n.isMutable = true := by
  induction bs with
  | nil => exact h
  | cons c bs ih =>
    unfold Site.markBlocks
    split
    · intro b hb
      rcases List.mem_cons.1 hb with rfl | hb
      · exact markNames hy _ (h c (List.mem_cons_self ..))
      · exact h b (List.mem_cons_of_mem _ hb)
    · intro b hb
      rcases List.mem_cons.1 hb with rfl | hb
      · exact h _ (List.mem_cons_self ..)
      · exact ih (fun b hb => h b (List.mem_cons_of_mem _ hb)) b hb

theorem mark (h : Changeable x p) {st : VarState} (hy : (y != x) = true) : Changeable x (p.mark y st) := by
  cases p with
  | nil => exact h
  | cons f p =>
    obtain ⟨h1, h2⟩ := cons_iff.1 h
    exact cons_iff.2 ⟨markBlocks hy _ h1, h2⟩

theorem hoistOne : (e : Expr) → onlyMut x e = true → Changeable x p → Changeable x (Dice.hoistOne e p)
  | .fnDecl y args ret b, he, h => by
    rw [Dice.hoistOne]
    simp only [onlyMut, Bool.and_eq_true] at he
    exact h.other he.1.1
  | .classDecl y b items, he, h => by
    rw [Dice.hoistOne]
    simp only [onlyMut, Bool.and_eq_true] at he
    exact h.other he.1.1
  | .exportDecl e, he, h => by
    rw [Dice.hoistOne]
    rw [onlyMut] at he
    exact hoistOne e he h
  | .ident _, _, h | .unit, _, h | .null, _, h | .bool _, _, h | .int _, _, h | .float _, _, h | .str _, _, h
  | .anonFn _ _ _, _, h | .object _, _, h | .list _, _, h | .assign _ _ _, _, h | .unary _ _, _, h | .binary _ _ _, _, h
  | .is _ _, _, h | .varDecl _ _ _ _, _, h | .opDecl _ _ _ _, _, h | .importDecl _ _ _, _, h | .ifExpr _ _ _, _, h
  | .loop _, _, h | .whileLoop _ _, _, h | .forLoop _ _ _, _, h | .break_, _, h | .continue_, _, h | .block _ _, _, h
  | .return_ _, _, h | .nullProp _, _, h | .errProp _, _, h | .field _ _, _, h | .superAccess _ _, _, h | .call _ _, _, h
  | .superCall _, _, h | .index _ _, _, h => h

theorem hoist (es : List Expr) : ∀ {p : Site}, onlyMutAll x es = true → Changeable x p → Changeable x (Dice.hoist es p) := by
  induction es with
  | nil => exact fun _ h => h
  | cons e es ih =>
    intro p he h
    simp only [onlyMutAll, Bool.and_eq_true] at he
    exact ih he.2 (hoistOne e he.1 h)

end Site.Changeable

open Site.Changeable (declareAll)

variable {x : String}

theorem onlyMutAll_append (es fs : List Expr) : onlyMutAll x (es ++ fs) = (onlyMutAll x es && onlyMutAll x fs) := by
  induction es with
  | nil => simp [onlyMutAll]
  | cons e es ih => simp [onlyMutAll, ih, Bool.and_assoc]

theorem onlyMutAll_toList (t : Option Expr) : onlyMutAll x t.toList = onlyMutOpt x t := by
  cases t <;> simp [onlyMutAll, onlyMutOpt]

theorem onlyMutAll_fields (fs : List (String × Expr)) : onlyMutAll x (fs.map (·.2)) = onlyMutFields x fs := by
  induction fs with
  | nil => simp [onlyMutAll, onlyMutFields]
  | cons f fs ih => simp [onlyMutAll, onlyMutFields, ih]

theorem onlyMut_body {b : Expr} (h : onlyMut x b = true) : onlyMutAll x (bodyExprs b ++ (bodyTrailing b).toList) = true := by
  rw [onlyMutAll_append, onlyMutAll_toList]
  cases b with
  | block es t =>
    rw [onlyMut] at h
    exact h
  | _ => simpa [bodyExprs, bodyTrailing, onlyMutAll, onlyMutOpt] using h

set_option maxHeartbeats 4000000 in
mutual

theorem changeable_expr : (e : Expr) → onlyMut x e = true → {p : Site} → p.Changeable x → (afterExpr e p).Changeable x
  | .ident _, _, _, h | .unit, _, _, h | .null, _, _, h | .bool _, _, _, h | .int _, _, _, h | .float _, _, _, h
  | .str _, _, _, h | .anonFn _ _ _, _, _, h | .opDecl _ _ _ _, _, _, h | .break_, _, _, h | .continue_, _, _, h
  | .superAccess _ _, _, _, h => h
  | .object fs, he, _, h => by rw [onlyMut] at he; exact changeable_fields fs he h
  | .list es, he, _, h => by rw [onlyMut] at he; exact changeable_all es he h
  | .assign _ t rhs, he, p, h => by
    simp only [onlyMut, Bool.and_eq_true] at he
    cases t with
    | ident => exact changeable_expr rhs he.2 h
    | field e f =>
      have h1 := he.1
      rw [onlyMut] at h1
      exact changeable_expr rhs he.2 (changeable_expr e h1 h)
    | index e i =>
      have h1 := he.1
      simp only [onlyMut, Bool.and_eq_true] at h1
      exact changeable_expr rhs he.2 (changeable_expr i h1.2 (changeable_expr e h1.1 h))
    | _ => exact h
  | .unary _ e, he, _, h => by rw [onlyMut] at he; exact changeable_expr e he h
  | .binary op a b, he, _, h => by
    simp only [onlyMut, Bool.and_eq_true] at he
    cases op with
    | pipeline => exact changeable_expr a he.1 (changeable_expr b he.2 h)
    | _ => exact changeable_expr b he.2 (changeable_expr a he.1 h)
  | .is e t, he, _, h => by
    rw [onlyMut] at he
    rw [afterExpr]
    split
    · exact changeable_expr e he (changeable_expr e he h)
    · exact changeable_expr e he h
  | .varDecl (.singular y) m e _, he, _, h => by
    simp only [onlyMut, Bool.and_eq_true] at he
    refine (changeable_expr e he.2 h).declare fun hy => ?_
    have := he.1
    rw [hy] at this
    simpa [Name.isMutable] using this
  | .varDecl (.destructured xs) _ e _, he, _, h => by
    simp only [onlyMut, Bool.and_eq_true] at he
    exact declareAll _ (changeable_expr e he.2 h) he.1
  | .fnDecl _ _ _ _, he, _, h => by
    simp only [onlyMut, Bool.and_eq_true] at he
    exact h.mark he.1.1
  | .classDecl name base _, he, p, h => by
    simp only [onlyMut, Bool.and_eq_true] at he
    rw [afterExpr]
    refine Site.Changeable.leave ?_
    have h1 : ((afterOpt base (p.enter none)).declare nameSuper (.local true true)).Changeable x :=
      (changeable_opt base he.1.2 (h.enter none)).declare fun _ => rfl
    split
    · exact h1.mark he.1.1
    · exact h1
  | .importDecl m xs _, he, _, h => by
    simp only [onlyMut, Bool.and_eq_true] at he
    exact declareAll _ (declareAll _ h he.1) he.2
  | .exportDecl e, he, _, h => by rw [onlyMut] at he; exact changeable_expr e he h
  | .ifExpr c t e, he, _, h => by
    simp only [onlyMut, Bool.and_eq_true] at he
    exact changeable_opt e he.2 (changeable_expr t he.1.2 (changeable_expr c he.1.1 h))
  | .loop b, he, _, h => by
    rw [onlyMut] at he
    cases b with
    | block es t =>
      simp only [onlyMut, Bool.and_eq_true] at he
      exact ((changeable_opt t he.2 (changeable_all es he.1 (((h.enter _).enter _).hoist _
        (by simp [onlyMutAll_append, onlyMutAll_toList, he])))).leave).leave
    | _ => exact h
  | .whileLoop c b, he, _, h => by
    simp only [onlyMut, Bool.and_eq_true] at he
    cases b with
    | block es t =>
      simp only [onlyMut, Bool.and_eq_true] at he
      exact ((changeable_opt t he.2.2 (changeable_all es he.2.1 (((changeable_expr c he.1 (h.enter _)).enter _).hoist _
        (by simp [onlyMutAll_append, onlyMutAll_toList, he])))).leave).leave
    | _ => exact h
  | .forLoop y source body, he, p, h => by
    simp only [onlyMut, Bool.and_eq_true] at he
    have other : ((afterExpr body (((afterExpr source p).enter (some false)).declare y (.local false true))).leave).Changeable x :=
      (changeable_expr body he.2 (((changeable_expr source he.1.2 h).enter _).other he.1.1)).leave
    cases source with
    | binary op a b =>
      have hs := he.1.2
      simp only [onlyMut, Bool.and_eq_true] at hs
      have range := (changeable_expr body he.2
        (((changeable_expr a hs.1 (changeable_expr b hs.2 h)).enter (some false)).other (st := .local false true) he.1.1)).leave
      cases op with
      | rangeInclusive => exact range
      | rangeExclusive => exact range
      | _ => exact other
    | _ => exact other
  | .block es t, he, _, h => by
    simp only [onlyMut, Bool.and_eq_true] at he
    exact (changeable_opt t he.2 (changeable_all es he.1 ((h.enter _).hoist _
      (by simp [onlyMutAll_append, onlyMutAll_toList, he])))).leave
  | .return_ r, he, _, h => by rw [onlyMut] at he; exact changeable_opt r he h
  | .nullProp e, he, _, h => by rw [onlyMut] at he; exact changeable_expr e he h
  | .errProp e, he, _, h => by rw [onlyMut] at he; exact changeable_expr e he h
  | .field e _, he, _, h => by rw [onlyMut] at he; exact changeable_expr e he h
  | .call e args, he, _, h => by
    simp only [onlyMut, Bool.and_eq_true] at he
    exact changeable_all args he.2 (changeable_expr e he.1 h)
  | .superCall args, he, _, h => by rw [onlyMut] at he; exact changeable_all args he h
  | .index e i, he, _, h => by
    simp only [onlyMut, Bool.and_eq_true] at he
    exact changeable_expr i he.2 (changeable_expr e he.1 h)
termination_by e => sizeOf e

theorem changeable_all : (es : List Expr) → onlyMutAll x es = true → {p : Site} → p.Changeable x → (afterAll es p).Changeable x
  | [], _, _, h => h
  | e :: es, he, _, h => by
    simp only [onlyMutAll, Bool.and_eq_true] at he
    exact changeable_all es he.2 (changeable_expr e he.1 h)
termination_by es => sizeOf es

theorem changeable_opt : (e : Option Expr) → onlyMutOpt x e = true → {p : Site} → p.Changeable x → (afterOpt e p).Changeable x
  | none, _, _, h => h
  | some e, he, _, h => by rw [onlyMutOpt] at he; exact changeable_expr e he h
termination_by e => sizeOf e

theorem changeable_fields : (fs : List (String × Expr)) → onlyMutFields x fs = true → {p : Site} → p.Changeable x →
    (afterFields fs p).Changeable x
  | [], _, _, h => h
  | (_, e) :: fs, he, _, h => by
    simp only [onlyMutFields, Bool.and_eq_true] at he
    exact changeable_fields fs he.2 (changeable_expr e he.1 h)
termination_by fs => sizeOf fs

end

theorem inList_changeable {p q : Site} {es : List Expr} {e : Expr} (h : InList p es q e) (hp : p.Changeable x)
    (he : onlyMutAll x es = true) : q.Changeable x ∧ onlyMut x e = true := by
  induction h with
  | head =>
    simp only [onlyMutAll, Bool.and_eq_true] at he
    exact ⟨hp, he.1⟩
  | tail _ ih =>
    simp only [onlyMutAll, Bool.and_eq_true] at he
    exact ih (changeable_expr _ he.1 hp) he.2

theorem inFn_changeable {p q : Site} {k : FnKind} {args : List FnArg} {ret : Option TypeAnn} {body e : Expr}
    (h : InFn p k args ret body q e) (hx : ("" != x) = true) (hp : p.Changeable x)
    (ha : (args.map (·.name)).all (· != x) = true) (hb : onlyMut x body = true) : q.Changeable x ∧ onlyMut x e = true := by
  obtain ⟨h⟩ := h
  refine inList_changeable h (Site.Changeable.hoist _ (onlyMut_body hb) ?_) (onlyMut_body hb)
  have h0 : (Site.enter none (⟨fnCompilerKind k ret, [{}]⟩ :: p)).Changeable x := by
    refine Site.Changeable.enter (Site.Changeable.cons_iff.2 ⟨fun b hb n hn => ?_, hp⟩) none
    simp only [List.mem_singleton] at hb
    subst hb
    cases hn
  unfold declareParams
  cases k with
  | function => exact declareAll _ (h0.other hx) ha
  | staticMethod => exact declareAll _ (h0.other hx) ha
  | _ => exact declareAll _ h0 ha

theorem members_fn {items : List Expr} (h : onlyMutMembers x items = true) {name : String} {args : List FnArg}
    {ret : Option TypeAnn} {body : Expr} (hm : .fnDecl name args ret body ∈ items) :
    (args.map (·.name)).all (· != x) = true ∧ onlyMut x body = true := by
  induction items with
  | nil => cases hm
  | cons e es ih =>
    rcases List.mem_cons.1 hm with rfl | hm
    · rw [onlyMutMembers] at h
      simp only [Bool.and_eq_true] at h
      exact h.1
    · refine ih ?_ hm
      cases e <;> (simp only [onlyMutMembers, Bool.and_eq_true] at h; exact h.2)

theorem members_op {items : List Expr} (h : onlyMutMembers x items = true) {op : _} {args : List FnArg}
    {ret : Option TypeAnn} {body : Expr} (hm : .opDecl op args ret body ∈ items) :
    (args.map (·.name)).all (· != x) = true ∧ onlyMut x body = true := by
  induction items with
  | nil => cases hm
  | cons e es ih =>
    rcases List.mem_cons.1 hm with rfl | hm
    · simp only [onlyMutMembers, onlyMut, Bool.and_eq_true] at h
      exact h.1
    · refine ih ?_ hm
      cases e <;> (simp only [onlyMutMembers, Bool.and_eq_true] at h; exact h.2)

theorem class_changeable {p : Site} {name : String} {base : Option Expr} (hn : (name != x) = true) (hb : onlyMutOpt x base = true)
    (h : p.Changeable x) : (classSite name base p).Changeable x := by
  have h1 : ((afterOpt base (p.enter none)).declare nameSuper (.local true true)).Changeable x :=
    (changeable_opt base hb (h.enter none)).declare fun _ => rfl
  unfold classSite
  dsimp only
  split
  · exact h1.mark hn
  · exact h1

theorem inside_changeable {p q : Site} {e e' : Expr} (hx : ("" != x) = true) (h : Inside p e q e') (hp : p.Changeable x)
    (he : onlyMut x e = true) : q.Changeable x ∧ onlyMut x e' = true := by
  cases h <;> (try simp only [onlyMut, Bool.and_eq_true] at he)
  case anonFn h => exact inFn_changeable h hx hp he.1 he.2
  case fnDecl h => exact inFn_changeable h hx hp he.1.2 he.2
  case opDecl h => exact inFn_changeable h hx hp he.1 he.2
  case memberFn hm hp' h =>
    subst hp'
    obtain ⟨h1, h2⟩ := members_fn he.2 hm
    exact inFn_changeable h hx (class_changeable he.1.1 he.1.2 hp) h1 h2
  case memberOp hm hp' h =>
    subst hp'
    obtain ⟨h1, h2⟩ := members_op he.2 hm
    exact inFn_changeable h hx (class_changeable he.1.1 he.1.2 hp) h1 h2
  case object h => exact inList_changeable h hp (by rwa [onlyMutAll_fields])
  case list h => exact inList_changeable h hp he
  case assignIdent => exact ⟨hp, he.2⟩
  case assignField h => exact inList_changeable h hp (by simp [onlyMutAll, he])
  case assignIndex h => exact inList_changeable h hp (by simp [onlyMutAll, he])
  case unary => exact ⟨hp, he⟩
  case binary h => exact inList_changeable h hp (by simp [onlyMutAll, he])
  case pipeline h => exact inList_changeable h hp (by simp [onlyMutAll, he])
  case «is» => exact ⟨hp, he⟩
  case isAgain => exact ⟨changeable_expr _ he hp, he⟩
  case varDecl k m t =>
    cases k <;> (simp only [onlyMut, Bool.and_eq_true] at he; exact ⟨hp, he.2⟩)
  case base =>
    have := he.1.2
    rw [onlyMutOpt] at this
    exact ⟨hp.enter _, this⟩
  case exportDecl => exact ⟨hp, he⟩
  case ifExpr h => exact inList_changeable h hp (by simp [onlyMutAll, onlyMutAll_toList, he])
  case loop h =>
    exact inList_changeable h (((hp.enter _).enter _).hoist _ (by simpa [onlyMutAll_append, onlyMutAll_toList] using he))
      (by simpa [onlyMutAll_append, onlyMutAll_toList] using he)
  case whileCond => exact ⟨hp.enter _, he.1⟩
  case whileBody h =>
    exact inList_changeable h (((changeable_expr _ he.1 (hp.enter _)).enter _).hoist _
      (by simpa [onlyMutAll_append, onlyMutAll_toList] using he.2)) (by simpa [onlyMutAll_append, onlyMutAll_toList] using he.2)
  case rangeBound h => exact inList_changeable h hp (by simp [onlyMutAll, he])
  case rangeBody =>
    exact ⟨((changeable_expr _ he.1.2.1 (changeable_expr _ he.1.2.2 hp)).enter _).other he.1.1, he.2⟩
  case forSource => exact ⟨hp, he.1.2⟩
  case forBody => exact ⟨((changeable_expr _ he.1.2 hp).enter _).other he.1.1, he.2⟩
  case block h =>
    exact inList_changeable h ((hp.enter _).hoist _ (by simpa [onlyMutAll_append, onlyMutAll_toList] using he))
      (by simpa [onlyMutAll_append, onlyMutAll_toList] using he)
  case return_ => rw [onlyMutOpt] at he; exact ⟨hp, he⟩
  case nullProp => exact ⟨hp, he⟩
  case errProp => exact ⟨hp, he⟩
  case field => exact ⟨hp, he⟩
  case call h => exact inList_changeable h hp (by simp [onlyMutAll, he])
  case superCall h => exact inList_changeable h hp he
  case index h => exact inList_changeable h hp (by simp [onlyMutAll, he])

theorem occurs_changeable {kind : CompilerKind} {root : Expr} (hx : ("" != x) = true) (hm : kind = .module → x ≠ nameExport)
    (hr : onlyMut x root = true) {q : Site} {e : Expr} (h : OccursIn kind root q e) : q.Changeable x ∧ onlyMut x e = true := by
  unfold OccursIn at h
  induction h with
  | here =>
    refine ⟨Site.Changeable.cons_iff.2 ⟨fun b hb n hn he => ?_, ⟨fun f hf => by cases hf⟩⟩, hr⟩
    simp only [List.mem_singleton] at hb
    subst hb
    split at hn
    · rename_i hk
      simp only [List.mem_singleton] at hn
      subst hn
      exact (hm hk he.symm).elim
    · cases hn
  | step _ hi ih => exact inside_changeable hx hi ih.1 ih.2

theorem lookup_changeable {q : Site} {n : Name} (h : q.Changeable x) (hn : q.lookup x = some n) : n.isMutable = true := by
  unfold Site.lookup findName at hn
  have hx := List.find?_some hn
  have hm := List.mem_of_find?_eq_some hn
  simp only [beq_iff_eq] at hx
  simp only [FnSite.names, List.mem_flatMap] at hm
  obtain ⟨f, hf, b, hb, hn⟩ := hm
  exact h.all f hf b hb n hn hx

/-- **C73.**  If the only declarations of a name are `let mut`, no assignment to it is rejected as a reassignment.  Missing:
variables declared by taking an object apart (`destructured_not_mutable`).  The names excluded are not identifiers. -/
theorem mutable_assigned_partial {kind : CompilerKind} {root : Expr} (hx : x ≠ "") (hm : kind = .module → x ≠ nameExport)
    (hr : onlyMut x root = true) : compile kind root ≠ .error (.cannotReassign x) := by
  intro h
  obtain ⟨q, op, rhs, n, ho, hn, hi⟩ := reassignment_rejected h
  have := lookup_changeable (occurs_changeable (by simpa using Ne.symm hx) hm hr ho).1 hn
  rw [this] at hi
  cases hi

/-- `let mut x = 1; class A { fn x(self, y) { x = y } } fn () x += 2` -/
example : compile .script (.block [.varDecl (.singular "x") true (.int 1) none,
      .classDecl "A" none [.fnDecl "x" [⟨"self", none⟩, ⟨"y", none⟩] none (.assign .assign (.ident "x") (.ident "y"))]]
    (some (.anonFn [] none (.assign .add (.ident "x") (.int 2))))) ≠ .error (.cannotReassign "x") :=
  mutable_assigned_partial (by decide) (by decide) (by decide +kernel)

example : ∃ bc, compile .script (.block [.varDecl (.singular "x") true (.int 1) none,
      .classDecl "A" none [.fnDecl "x" [⟨"self", none⟩, ⟨"y", none⟩] none (.assign .assign (.ident "x") (.ident "y"))]]
    (some (.anonFn [] none (.assign .add (.ident "x") (.int 2))))) = .ok bc := accepted (by decide +kernel)

open Findings in
/-- **C73, refuted.**  A variable declared mutable by taking an object apart cannot be assigned to. -/
theorem destructured_not_mutable :
    Rejected .script "let mut { a } = f a = 2" (.cannotReassign "a") :=
  compile_rejects (e := seq [.varDecl (.destructured ["a"]) true (var "f") none] (.assign .assign (var "a") (.int 2)))
    (by kernel_rfl) (by decide +kernel)

end Dice
