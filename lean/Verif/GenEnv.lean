import Verif.GenShape
import Verif.UpvalueProps

/-!
# How code generation changes the static environment
-/

namespace Dice

/-- Relations between environments that hold for every change the code generation makes. -/
structure EnvRel (R : Env → Env → Prop) : Prop where
  refl : ∀ g, R g g
  trans : ∀ {a b c}, R a b → R b c → R a c
  pushScope : ∀ {g g' : Env} {k e}, g.pushScope k e = some g' → R g g'
  popScope : ∀ {g g' : Env} {vars}, g.popScope = some (vars, g') → R g g'
  addLocal : ∀ {g g' : Env} {x st slot}, g.addLocal x st = some (slot, g') → R g g'
  setState : ∀ (g : Env) x st, R g (g.setState x st)
  setTemps : ∀ (g : Env) n, R g (g.setTemps n)
  setCallDepth : ∀ {g g' : Env} {d}, g.setCallDepth d = some g' → R g g'
  resolve : ∀ {g g' : Env} {x i}, resolveUpvalue x g = some (i, g') → R g g'
  fn : ∀ {g g' : Env} {fn : Ctx} {k}, R (g.pushFn k) (fn :: g') → R g g'

section
variable {R : Env → Env → Prop} (hR : EnvRel R)
include hR

theorem EnvRel.addLocals {xs : List String} {ls : List (String × Nat)} {g g' : Env}
    (h : g.addLocals xs = some (ls, g')) : R g g' := by
  induction xs generalizing ls g with
  | nil => cases h; exact hR.refl _
  | cons x xs ih =>
    unfold Env.addLocals at h
    split at h
    · cases h
    · rename_i hl
      split at h
      · cases h
      · rename_i hr
        cases h
        exact hR.trans (hR.addLocal hl) (ih hr)

theorem IdentGen.rel {g g' : Env} {x : String} {i : Instr} (h : IdentGen g x i g') : R g g' := by
  cases h with
  | «local» => exact hR.refl _
  | captured _ hr => exact hR.resolve hr
  | global => exact hR.refl _

theorem TypeGen.rel {g g' : Env} {slot : Nat} {t : Option TypeAnn} {c : Code} (h : TypeGen g slot t c g') :
    R g g' := by
  cases h with
  | none => exact hR.refl _
  | some h => exact h.rel hR

theorem ReturnGen.rel {g g' : Env} {c : Code} (h : ReturnGen g c g') : R g g' := by
  cases h with
  | plain => exact hR.refl _
  | typed _ _ h => exact h.rel hR

theorem ParamsGen.rel {g g' : Env} {args : List FnArg} {c : Code} (h : ParamsGen g args c g') : R g g' := by
  induction h with
  | nil => exact hR.refl _
  | cons hl ht _ ih => exact hR.trans (hR.addLocal hl) (hR.trans (ht.rel hR) ih)

theorem ArgsGen.rel {g g' : Env} {k : FnKind} {args : List FnArg} {c : Code} (h : ArgsGen g k args c g') :
    R g g' := by
  cases h with
  | noReceiver _ hl hp => exact hR.trans (hR.addLocal hl) (hp.rel hR)
  | receiver _ hp => exact hp.rel hR

theorem EnvRel.scanDecl (e : Expr) {g g' : Env} (h : scanDecl e g = some g') : R g g' := by
  cases e with
  | fnDecl =>
    simp only [Dice.scanDecl, Option.map_eq_some_iff] at h
    obtain ⟨⟨s, g1⟩, hl, rfl⟩ := h
    exact hR.addLocal hl
  | classDecl =>
    simp only [Dice.scanDecl, Option.map_eq_some_iff] at h
    obtain ⟨⟨s, g1⟩, hl, rfl⟩ := h
    exact hR.addLocal hl
  | exportDecl e => exact EnvRel.scanDecl e (by simpa only [Dice.scanDecl] using h)
  | _ => simp only [Dice.scanDecl] at h; cases h; exact hR.refl _

theorem EnvRel.scanDecls {es : List Expr} {g g' : Env} (h : scanDecls es g = some g') : R g g' := by
  induction es generalizing g with
  | nil => cases h; exact hR.refl _
  | cons e es ih =>
    unfold Dice.scanDecls at h
    split at h
    · cases h
    · rename_i hd
      exact hR.trans (hR.scanDecl e hd) (ih h)

theorem FnEndGen.rel {g g' : Env} {k : FnKind} {c : Code} (h : FnEndGen g k c g') : R g g' := by
  cases h with
  | constructor => exact hR.refl _
  | other _ h => exact h.rel hR

theorem Gen.rel {g g' : Env} {nd : Node} {c : Code} (h : Gen g nd c g') : R g g' := by
  induction h with
  | ident h => exact h.rel hR
  | unit => exact hR.refl _
  | null => exact hR.refl _
  | bool => exact hR.refl _
  | int => exact hR.refl _
  | float => exact hR.refl _
  | str => exact hR.refl _
  | anonFn _ _ ih => exact hR.fn ih
  | object _ ih => exact ih
  | list _ ih => exact ih
  | assignLocal _ _ _ ih => exact ih
  | updateLocal _ _ _ _ ih => exact ih
  | assignCaptured _ hr _ _ _ ih => exact hR.trans (hR.resolve hr) ih
  | updateCaptured _ hr _ _ _ _ ih => exact hR.trans (hR.resolve hr) ih
  | assignField _ _ ih1 ih2 => exact hR.trans ih1 ih2
  | updateField _ _ _ ih1 ih2 => exact hR.trans ih1 ih2
  | assignIndex _ _ _ ih1 ih2 ih3 => exact hR.trans ih1 (hR.trans ih2 ih3)
  | updateIndex _ _ _ _ ih1 ih2 ih3 => exact hR.trans ih1 (hR.trans ih2 ih3)
  | unary _ ih => exact ih
  | and _ _ ih1 ih2 => exact hR.trans ih1 ih2
  | or _ _ ih1 ih2 => exact hR.trans ih1 ih2
  | pipeline _ _ ih1 ih2 => exact hR.trans ih1 ih2
  | coalesce _ _ ih1 ih2 => exact hR.trans ih1 ih2
  | binary _ _ _ ih1 ih2 => exact hR.trans ih1 ih2
  | «is» _ _ ht ih => exact hR.trans ih (ht.rel hR)
  | isNullable _ _ _ ht ih1 ih2 => exact hR.trans ih1 (hR.trans ih2 (ht.rel hR))
  | varDecl _ hl ht ih => exact hR.trans ih (hR.trans (hR.addLocal hl) (ht.rel hR))
  | varDecls _ hl ih => exact hR.trans ih (hR.addLocals hl)
  | fnDecl _ _ _ _ _ ih => exact hR.trans (hR.fn ih) (hR.setState _ _ _)
  | opDecl _ _ _ ih => exact hR.fn ih
  | classDecl h0 _ hsup _ _ hg _ hp ihb ihi =>
    refine hR.trans (hR.pushScope h0) (hR.trans ihb (hR.trans (hR.addLocal hsup) (hR.trans ?_ (hR.trans ihi (hR.popScope hp)))))
    rw [hg]
    split
    · exact hR.setState _ _ _
    · exact hR.refl _
  | importItems hl => exact hR.addLocals hl
  | importModule hl hm => exact hR.trans (hR.addLocals hl) (hR.addLocal hm)
  | exportDecl _ _ _ _ _ _ ih => exact ih
  | ifExpr _ _ _ ih1 ih2 ih3 => exact hR.trans ih1 (hR.trans ih2 ih3)
  | loop h0 _ hp ih => exact hR.trans (hR.pushScope h0) (hR.trans ih (hR.popScope hp))
  | whileLoop h0 _ _ hp ih1 ih2 => exact hR.trans (hR.pushScope h0) (hR.trans ih1 (hR.trans ih2 (hR.popScope hp)))
  | rangeLoop _ _ _ h0 hl _ hp ih1 ih2 ih3 =>
    exact hR.trans ih1 (hR.trans ih2 (hR.trans (hR.pushScope h0) (hR.trans (hR.addLocal hl) (hR.trans ih3 (hR.popScope hp)))))
  | forLoop _ _ h0 hl _ hp ih1 ih2 =>
    exact hR.trans ih1 (hR.trans (hR.pushScope h0) (hR.trans (hR.addLocal hl) (hR.trans ih2 (hR.popScope hp))))
  | break_ => exact hR.refl _
  | continue_ => exact hR.refl _
  | blockExpr _ ih => exact ih
  | returnValue _ _ _ hr ih => exact hR.trans ih (hr.rel hR)
  | returnUnit _ _ hr => exact hr.rel hR
  | returnSelf _ _ hr => exact hr.rel hR
  | chain he hd h0 _ hd' h1 ih => exact hR.trans (hR.setCallDepth h0) (hR.trans ih (hR.setCallDepth h1))
  | nullProp _ ih => exact ih
  | errProp _ _ _ hr ih => exact hR.trans ih (hr.rel hR)
  | field _ ih => exact ih
  | superAccess _ _ h1 h2 => exact hR.trans (h1.rel hR) (h2.rel hR)
  | call _ _ hg ih1 ih2 => exact hg ▸ hR.trans ih1 (hR.trans ih2 (hR.setTemps _ _))
  | superCall _ _ hi ih => exact hR.trans ih (hR.trans (hR.setTemps _ _) (hi.rel hR))
  | index _ hd h0 _ h3 hg ih1 ih2 =>
    exact hg ▸ hR.trans ih1 (hR.trans (hR.setCallDepth h0) (hR.trans (hR.setTemps _ _) (hR.trans ih2
      (hR.trans (hR.setTemps _ _) (hR.setCallDepth h3)))))
  | seqNil _ ih => exact ih
  | seqCons _ _ ih1 ih2 => exact hR.trans ih1 ih2
  | elsSome _ ih => exact ih
  | elsNone => exact hR.refl _
  | itemsNil => exact hR.refl _
  | itemsCons _ _ ih1 ih2 => exact hR.trans ih1 ih2
  | argsNil => exact hR.refl _
  | argsCons hd h0 _ h2 _ ih1 ih2 =>
    exact hR.trans (hR.setCallDepth h0) (hR.trans (hR.setTemps _ _) (hR.trans ih1 (hR.trans (hR.setCallDepth h2) ih2)))
  | fieldsNil => exact hR.refl _
  | fieldsCons _ _ ih1 ih2 => exact hR.trans ih1 ih2
  | baseSome _ ih => exact ih
  | baseNone h => exact h.rel hR
  | clsNil => exact hR.refl _
  | clsFn _ _ _ _ _ _ ih1 ih2 => exact hR.trans (hR.fn ih1) ih2
  | clsOp _ _ _ _ _ _ ih1 ih2 => exact hR.trans (hR.fn ih1) ih2
  | block h0 hs _ hp ih => exact hR.trans (hR.pushScope h0) (hR.trans (hR.scanDecls hs) (hR.trans ih (hR.popScope hp)))
  | fnBody _ h0 ha hs _ _ he hp ih =>
    simp only [Option.map_eq_some_iff] at hp
    obtain ⟨⟨vars, g6⟩, hp, rfl⟩ := hp
    exact hR.trans (hR.pushScope h0) (hR.trans (ha.rel hR) (hR.trans (hR.scanDecls hs) (hR.trans ih
      (hR.trans (he.rel hR) (hR.popScope hp)))))

end

/-! ## Slots -/

/-- The frames do not shrink. -/
def SlotsLe : Env → Env → Prop
  | [], [] => True
  | c :: r, c' :: r' => c.scopes.slotCount ≤ c'.scopes.slotCount ∧ SlotsLe r r'
  | _, _ => False

theorem SlotsLe.refl (g : Env) : SlotsLe g g := by
  induction g with
  | nil => trivial
  | cons c r ih => exact ⟨Nat.le_refl _, ih⟩

theorem SlotsLe.trans {a b c : Env} (h1 : SlotsLe a b) (h2 : SlotsLe b c) : SlotsLe a c := by
  induction a generalizing b c with
  | nil =>
    match b, c, h1, h2 with
    | [], [], _, _ => trivial
  | cons x a ih =>
    match b, c, h1, h2 with
    | y :: b, z :: c, h1, h2 => exact ⟨Nat.le_trans h1.1 h2.1, ih h1.2 h2.2⟩

/-- The slots of the innermost function. -/
def Env.slotCount : Env → Nat
  | [] => 0
  | c :: _ => c.scopes.slotCount

theorem SlotsLe.top {g g' : Env} (h : SlotsLe g g') : g.slotCount ≤ g'.slotCount := by
  match g, g', h with
  | [], [], _ => exact Nat.le_refl _
  | _ :: _, _ :: _, h => exact h.1

theorem exts_slotsLe {g g' : List Ctx} (h : CtxExts g g') : SlotsLe g g' := by
  induction h with
  | nil => trivial
  | cons h _ ih => exact ⟨Nat.le_of_eq h.slotCount.symm, ih⟩

/-- Every frame keeps the invariants of the compiler's scopes and does not shrink. -/
def SlotRel (g g' : Env) : Prop := StackInv g → StackInv g' ∧ SlotsLe g g'

theorem scopeStep_slots {c : Ctx} {rest : Env} {s : ScopeStack} (o : ScopeOp) (h : o.run c.scopes = some s) :
    SlotRel (c :: rest) ({ c with scopes := s } :: rest) := by
  intro inv
  have := scopeInv_step inv.2.1 o h
  exact ⟨⟨inv.1, this.1, inv.2.2.1, inv.2.2.2⟩, this.2, SlotsLe.refl _⟩

theorem slotRel : EnvRel SlotRel where
  refl g inv := ⟨inv, .refl g⟩
  trans h1 h2 inv := ⟨(h2 (h1 inv).1).1, (h1 inv).2.trans (h2 (h1 inv).1).2⟩
  pushScope {g g' k e} h := by
    match g, h with
    | c :: rest, h =>
      cases h
      exact scopeStep_slots (.push k _) rfl
  popScope {g g' vars} h := by
    match g, h with
    | c :: rest, h =>
      unfold Env.popScope at h
      simp only at h
      cases hp : c.scopes.popScope with
      | none => rw [hp] at h; cases h
      | some r =>
        rw [hp] at h
        cases h
        exact scopeStep_slots .pop (by simp [ScopeOp.run, hp])
  addLocal {g g' x st slot} h := by
    match g, h with
    | c :: rest, h =>
      unfold Env.addLocal at h
      simp only at h
      cases hp : c.scopes.addLocal x st with
      | none => rw [hp] at h; cases h
      | some r =>
        rw [hp] at h
        cases h
        exact scopeStep_slots (.add x st) (by simp [ScopeOp.run, hp])
  setState g x st := by
    cases g with
    | nil => exact fun inv => ⟨inv, .refl _⟩
    | cons c rest => exact scopeStep_slots (.setState x st) rfl
  setTemps g n := by
    cases g with
    | nil => exact fun inv => ⟨inv, .refl _⟩
    | cons c rest => exact fun inv => ⟨inv, Nat.le_refl _, .refl _⟩
  setCallDepth {g g' d} h := by
    match g, h with
    | c :: rest, h =>
      unfold Env.setCallDepth at h
      simp only at h
      cases hp : c.scopes.modifyTop (fun sc => { sc with callContext := { depth := d } }) with
      | none => rw [hp] at h; cases h
      | some r =>
        rw [hp] at h
        cases h
        exact scopeStep_slots (.setCall { depth := d }) hp
  resolve {g g' x i} h := fun inv => ⟨stackInv_resolve x g g' i h inv, exts_slotsLe (resolve_ext x g i g' h)⟩
  fn {g g' fn k} h := fun inv => by
    have := h ⟨List.Pairwise.nil, scopeInv_new _, by simp, inv⟩
    exact ⟨this.1.2.2.2, this.2.2⟩

/-- A visible variable lies in the frame. -/
theorem visible_slot_lt {s : ScopeStack} (h : ScopeInv s) {v : ScopeVar} (hv : v ∈ ScopeStack.visible s.stack) :
    v.slot < s.slotCount := by
  have : v.slot ∈ (ScopeStack.visible s.stack).map (·.slot) := List.mem_map_of_mem hv
  rw [h.slots] at this
  have := List.mem_range.1 (List.mem_reverse.1 this)
  have := h.bound
  omega

/-- The locals a finished function captures lie in the frame of the enclosing one. -/
theorem captured_slot_lt {fn : Ctx} {g : Env} (inv : StackInv (fn :: g)) {d : UpvalueDescriptor} (hd : d ∈ fn.upvalues)
    (hl : d.description.1 = true) : d.description.2 < g.slotCount := by
  have := inv.2.2.1 d hd
  cases d with
  | outer j m => cases hl
  | parentLocal s m =>
    obtain ⟨p, ps, rfl, v, hv, rfl, -⟩ := this
    exact visible_slot_lt inv.2.2.2.2.1 hv

/-! ## Pending values -/

/-- The pending values counted in each function. -/
def Env.pending (g : Env) : List Nat := g.map (·.temporaryCount)

def bumpHead (n : Nat) : List Nat → List Nat
  | [] => []
  | t :: ts => (t + n) :: ts

theorem bumpHead_zero (ts : List Nat) : bumpHead 0 ts = ts := by cases ts <;> rfl

theorem bumpHead_add (a b : Nat) (ts : List Nat) : bumpHead a (bumpHead b ts) = bumpHead (a + b) ts := by
  cases ts with
  | nil => rfl
  | cons t ts => simp only [bumpHead]; rw [Nat.add_assoc, Nat.add_comm a b]

/-- How many values a piece of syntax leaves counted as pending. -/
def Node.grows : Node → Nat
  | .args es => es.length
  | _ => 0

theorem pushScope_pending {k : ScopeKind} {e : Bool} {g g' : Env} (h : g.pushScope k e = some g') :
    g'.pending = g.pending := by
  match g, h with
  | c :: rest, h => cases h; rfl

theorem popScope_pending {vars : List ScopeVar} {g g' : Env} (h : g.popScope = some (vars, g')) :
    g'.pending = g.pending := by
  match g, h with
  | c :: rest, h =>
    obtain ⟨k, a, u, ⟨st, n⟩, t⟩ := c
    cases st with
    | nil => cases h
    | cons s ss => cases h; rfl

theorem addLocal_pending {x : String} {st : VarState} {slot : Nat} {g g' : Env}
    (h : g.addLocal x st = some (slot, g')) : g'.pending = g.pending := by
  match g, h with
  | c :: rest, h =>
    obtain ⟨k, a, u, ⟨st, n⟩, t⟩ := c
    cases st with
    | nil => cases h
    | cons s ss => cases h; rfl

theorem addLocals_pending {xs : List String} {ls : List (String × Nat)} {g g' : Env}
    (h : g.addLocals xs = some (ls, g')) : g'.pending = g.pending := by
  induction xs generalizing ls g with
  | nil => cases h; rfl
  | cons x xs ih =>
    unfold Env.addLocals at h
    split at h
    · cases h
    · rename_i hl
      split at h
      · cases h
      · rename_i hr
        cases h
        exact (ih hr).trans (addLocal_pending hl)

theorem setState_pending (x : String) (st : VarState) (g : Env) : (g.setState x st).pending = g.pending := by
  cases g <;> rfl

theorem setCallDepth_pending {d : Nat} {g g' : Env} (h : g.setCallDepth d = some g') : g'.pending = g.pending := by
  match g, h with
  | c :: rest, h =>
    obtain ⟨k, a, u, ⟨st, n⟩, t⟩ := c
    cases st with
    | nil => cases h
    | cons s ss => cases h; rfl

theorem resolve_pending {x : String} {g g' : Env} {i : Nat} (h : resolveUpvalue x g = some (i, g')) :
    g'.pending = g.pending := by
  have := resolve_ext x g i g' h
  clear h
  induction this with
  | nil => rfl
  | cons h _ ih =>
    simp only [Env.pending, List.map_cons] at ih ⊢
    rw [ih, h.same.2.2]

theorem IdentGen.pending {g g' : Env} {x : String} {i : Instr} (h : IdentGen g x i g') : g'.pending = g.pending := by
  cases h with
  | «local» => rfl
  | captured _ hr => exact resolve_pending hr
  | global => rfl

theorem TypeGen.pending {g g' : Env} {slot : Nat} {t : Option TypeAnn} {c : Code} (h : TypeGen g slot t c g') :
    g'.pending = g.pending := by
  cases h with
  | none => rfl
  | some h => exact h.pending

theorem ReturnGen.pending {g g' : Env} {c : Code} (h : ReturnGen g c g') : g'.pending = g.pending := by
  cases h with
  | plain => rfl
  | typed _ _ h => exact h.pending

theorem ParamsGen.pending {g g' : Env} {args : List FnArg} {c : Code} (h : ParamsGen g args c g') :
    g'.pending = g.pending := by
  induction h with
  | nil => rfl
  | cons hl ht _ ih => rw [ih, ht.pending, addLocal_pending hl]

theorem ArgsGen.pending {g g' : Env} {k : FnKind} {args : List FnArg} {c : Code} (h : ArgsGen g k args c g') :
    g'.pending = g.pending := by
  cases h with
  | noReceiver _ hl hp => rw [hp.pending, addLocal_pending hl]
  | receiver _ hp => exact hp.pending

theorem scanDecl_pending (e : Expr) {g g' : Env} (h : scanDecl e g = some g') : g'.pending = g.pending := by
  cases e with
  | fnDecl =>
    simp only [scanDecl, Option.map_eq_some_iff] at h
    obtain ⟨⟨s, g1⟩, hl, rfl⟩ := h
    exact addLocal_pending hl
  | classDecl =>
    simp only [scanDecl, Option.map_eq_some_iff] at h
    obtain ⟨⟨s, g1⟩, hl, rfl⟩ := h
    exact addLocal_pending hl
  | exportDecl e => exact scanDecl_pending e (by simpa only [scanDecl] using h)
  | _ => simp only [scanDecl] at h; cases h; rfl

theorem scanDecls_pending {es : List Expr} {g g' : Env} (h : scanDecls es g = some g') : g'.pending = g.pending := by
  induction es generalizing g with
  | nil => cases h; rfl
  | cons e es ih =>
    unfold scanDecls at h
    split at h
    · cases h
    · rename_i hd
      exact (ih h).trans (scanDecl_pending e hd)

theorem FnEndGen.pending {g g' : Env} {k : FnKind} {c : Code} (h : FnEndGen g k c g') : g'.pending = g.pending := by
  cases h with
  | constructor => rfl
  | other _ h => exact h.pending

theorem temps_pending (g : Env) : g.temps = g.pending.headD 0 := by cases g <;> rfl

theorem setTemps_pending (n : Nat) (g : Env) : (g.setTemps n).pending = (match g.pending with | [] => [] | _ :: ts => n :: ts) := by
  cases g <;> rfl

theorem setTemps_bump (n : Nat) (g : Env) : (g.setTemps (g.temps + n)).pending = bumpHead n g.pending := by
  cases g <;> rfl

/-- Generating code keeps the count of pending values; the arguments of a call are counted. -/
theorem Gen.pending {g g' : Env} {nd : Node} {c : Code} (h : Gen g nd c g') :
    g'.pending = bumpHead nd.grows g.pending := by
  have fn : ∀ {k : CompilerKind} {g g' : Env} {fn : Ctx},
      Env.pending (fn :: g') = bumpHead 0 (Env.pending (g.pushFn k)) → g'.pending = g.pending := by
    intro k g g' fn h
    exact (List.cons.inj h).2
  induction h with
  | call _ _ hg ih1 ih2 =>
    rename_i g g1 g2 g' e es c1 c2 _ _
    have e1 : g1.pending = g.pending := ih1.trans (bumpHead_zero _)
    show g'.pending = bumpHead 0 _
    rw [bumpHead_zero, ← e1, hg, setTemps_pending, ih2, temps_pending]
    cases g1.pending <;> rfl
  | superCall _ _ hi ih =>
    rename_i g g1 g' es v c i _ _
    show g'.pending = bumpHead 0 _
    rw [bumpHead_zero, hi.pending, setTemps_pending, ih, temps_pending]
    cases g.pending <;> rfl
  | index _ hd h0 _ h3 hg ih1 ih2 =>
    rename_i g g1 g2 g3 g4 g' e i c1 c2 d _ _
    show g'.pending = bumpHead 0 _
    have e1 : g1.pending = g.pending := ih1.trans (bumpHead_zero _)
    have e2 := setCallDepth_pending h0
    have e3 : g3.pending = bumpHead 1 g2.pending := by
      rw [ih2]; show bumpHead 0 _ = _; rw [bumpHead_zero, setTemps_bump]
    rw [bumpHead_zero, hg, setCallDepth_pending h3, setTemps_pending, temps_pending, e3, ← e1, ← e2]
    cases g2.pending <;> rfl
  | argsCons hd h0 _ h2 _ ih1 ih2 =>
    rename_i g g1 g2 g3 g' e es c1 c2 d _ _
    have e2 : g2.pending = bumpHead 1 g1.pending := by
      rw [ih1]; show bumpHead 0 _ = _; rw [bumpHead_zero, setTemps_bump]
    rw [ih2, setCallDepth_pending h2, e2, setCallDepth_pending h0, bumpHead_add]
    rfl
  | itemsCons _ _ ih1 ih2 => simp only [Node.grows, bumpHead_zero] at *; rw [ih2, ih1]
  | ident h => simp only [Node.grows, bumpHead_zero]; exact h.pending
  | anonFn _ _ ih => simp only [Node.grows, bumpHead_zero]; exact fn ih
  | assignCaptured _ hr _ _ _ ih => simp only [Node.grows, bumpHead_zero] at *; rw [ih, resolve_pending hr]
  | updateCaptured _ hr _ _ _ _ ih => simp only [Node.grows, bumpHead_zero] at *; rw [ih, resolve_pending hr]
  | «is» _ _ ht ih => simp only [Node.grows, bumpHead_zero] at *; rw [ht.pending, ih]
  | isNullable _ _ _ ht ih1 ih2 => simp only [Node.grows, bumpHead_zero] at *; rw [ht.pending, ih2, ih1]
  | varDecl _ hl ht ih => simp only [Node.grows, bumpHead_zero] at *; rw [ht.pending, addLocal_pending hl, ih]
  | varDecls _ hl ih => simp only [Node.grows, bumpHead_zero] at *; rw [addLocals_pending hl, ih]
  | fnDecl _ _ _ _ _ ih => simp only [Node.grows, bumpHead_zero]; rw [setState_pending]; exact fn ih
  | opDecl _ _ _ ih => simp only [Node.grows, bumpHead_zero]; exact fn ih
  | classDecl h0 _ hsup _ _ hg _ hp ihb ihi =>
    simp only [Node.grows, bumpHead_zero] at *
    rw [popScope_pending hp, ihi, hg, ← pushScope_pending h0, ← ihb, ← addLocal_pending hsup]
    split
    · rw [setState_pending]
    · rfl
  | importItems hl => simp only [Node.grows, bumpHead_zero]; exact addLocals_pending hl
  | importModule hl hm => simp only [Node.grows, bumpHead_zero]; rw [addLocal_pending hm, addLocals_pending hl]
  | loop h0 _ hp ih => simp only [Node.grows, bumpHead_zero] at *; rw [popScope_pending hp, ih, pushScope_pending h0]
  | whileLoop h0 _ _ hp ih1 ih2 =>
    simp only [Node.grows, bumpHead_zero] at *; rw [popScope_pending hp, ih2, ih1, pushScope_pending h0]
  | rangeLoop _ _ _ h0 hl _ hp ih1 ih2 ih3 =>
    simp only [Node.grows, bumpHead_zero] at *
    rw [popScope_pending hp, ih3, addLocal_pending hl, pushScope_pending h0, ih2, ih1]
  | forLoop _ _ h0 hl _ hp ih1 ih2 =>
    simp only [Node.grows, bumpHead_zero] at *
    rw [popScope_pending hp, ih2, addLocal_pending hl, pushScope_pending h0, ih1]
  | returnValue _ _ _ hr ih => simp only [Node.grows, bumpHead_zero] at *; rw [hr.pending, ih]
  | returnUnit _ _ hr => simp only [Node.grows, bumpHead_zero]; exact hr.pending
  | returnSelf _ _ hr => simp only [Node.grows, bumpHead_zero]; exact hr.pending
  | chain he hd h0 _ hd' h1 ih =>
    simp only [Node.grows, bumpHead_zero] at *; rw [setCallDepth_pending h1, ih, setCallDepth_pending h0]
  | errProp _ _ _ hr ih => simp only [Node.grows, bumpHead_zero] at *; rw [hr.pending, ih]
  | superAccess _ _ h1 h2 => simp only [Node.grows, bumpHead_zero] at *; rw [h2.pending, h1.pending]
  | baseNone h => simp only [Node.grows, bumpHead_zero]; exact h.pending
  | clsFn _ _ _ _ _ _ ih1 ih2 => simp only [Node.grows, bumpHead_zero] at ih2 ⊢; rw [ih2]; exact fn ih1
  | clsOp _ _ _ _ _ _ ih1 ih2 => simp only [Node.grows, bumpHead_zero] at ih2 ⊢; rw [ih2]; exact fn ih1
  | block h0 hs _ hp ih =>
    simp only [Node.grows, bumpHead_zero] at *
    rw [popScope_pending hp, ih, scanDecls_pending hs, pushScope_pending h0]
  | fnBody _ h0 ha hs _ _ he hp ih =>
    simp only [Option.map_eq_some_iff] at hp
    obtain ⟨⟨vars, g6⟩, hp, rfl⟩ := hp
    simp only [Node.grows, bumpHead_zero] at *
    rw [popScope_pending hp, he.pending, ih, scanDecls_pending hs, ha.pending, pushScope_pending h0]
  | _ => simp_all [Node.grows, bumpHead_zero]

/-- Outside of argument lists the count of pending values is unchanged. -/
theorem Gen.temps {g g' : Env} {nd : Node} {c : Code} (h : Gen g nd c g') (hn : nd.grows = 0) : g'.temps = g.temps := by
  rw [temps_pending, temps_pending, h.pending, hn, bumpHead_zero]

/-! ## Kinds of functions -/

/-- The kinds of the functions being compiled. -/
def Env.kinds (g : Env) : List CompilerKind := g.map (·.kind)

theorem kind_kinds (g : Env) : g.kind = g.kinds.head? := by cases g <;> rfl

theorem kindsRel : EnvRel fun g g' => g'.kinds = g.kinds where
  refl _ := rfl
  trans h1 h2 := h2.trans h1
  pushScope {g g' k e} h := by
    match g, h with
    | c :: rest, h => cases h; rfl
  popScope {g g' vars} h := by
    match g, h with
    | c :: rest, h =>
      unfold Env.popScope at h
      simp only at h
      cases hp : c.scopes.popScope with
      | none => rw [hp] at h; cases h
      | some r => rw [hp] at h; cases h; rfl
  addLocal {g g' x st slot} h := by
    match g, h with
    | c :: rest, h =>
      unfold Env.addLocal at h
      simp only at h
      cases hp : c.scopes.addLocal x st with
      | none => rw [hp] at h; cases h
      | some r => rw [hp] at h; cases h; rfl
  setState g x st := by cases g <;> rfl
  setTemps g n := by cases g <;> rfl
  setCallDepth {g g' d} h := by
    match g, h with
    | c :: rest, h =>
      obtain ⟨k, a, u, ⟨st, n⟩, t⟩ := c
      cases st with
      | nil => cases h
      | cons s ss => cases h; rfl
  resolve {g g' x i} h := by
    have := resolve_ext x g i g' h
    clear h
    induction this with
    | nil => rfl
    | cons h _ ih =>
      simp only [Env.kinds, List.map_cons] at ih ⊢
      rw [ih, h.same.1]
  fn {g g' fn k} h := by
    simp only [Env.kinds, Env.pushFn, List.map_cons, List.cons.injEq] at h
    exact h.2

/-- The function being compiled stays the same. -/
theorem Gen.kindEq {g g' : Env} {nd : Node} {c : Code} (h : Gen g nd c g') : g'.kind = g.kind := by
  rw [kind_kinds, kind_kinds, h.rel kindsRel]

end Dice
