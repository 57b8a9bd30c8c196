import Verif.SlotGen

/-!
# Operands of compiled code

The operands of the structured code of any accepted program, balanced or not: numbers of variables lie in the frame of
the function, numbers of captured variables among those that the function captures, and constants are of the kind that
the instruction expects.
-/

namespace Dice

/-- The operand is the number of a variable of the function. -/
def Opcode.usesLocal : Opcode → Bool
  | .loadLocal | .storeLocal | .assignLocal | .closeUpvalue | .assertTypeForLocal | .assertTypeOrNullForLocal => true
  | _ => false

/-- The operand is the number of a captured variable. -/
def Opcode.usesCaptured : Opcode → Bool
  | .loadUpvalue | .storeUpvalue | .assignUpvalue => true
  | _ => false

/-- A constant that can be pushed: no symbol; a function only if it captures nothing. -/
def Const.Pushable : Const → Prop
  | .sym _ => False
  | .fn code _ _ => code.upvalueCount = 0
  | _ => True

/-- The operands of an instruction are right in a function with `N` variables and `U` captured ones. -/
def Instr.Within (N U : Nat) : Instr → Prop
  | .op _ => True
  | .byte o b => (o.usesLocal = true → b.toNat < N) ∧ (o.usesCaptured = true → b.toNat < U)
  | .const o c => if o = .pushConst then c.Pushable else ∃ s, c = .sym s
  | .closure _ _ _ captured => ∀ d ∈ captured, d.description.2 < if d.description.1 then N else U
  | .fieldToLocal _ slot => slot.toNat < N

theorem Instr.within_const (N U : Nat) (o : Opcode) (c : Const) :
    (Instr.const o c).Within N U ↔ if o = .pushConst then c.Pushable else ∃ s, c = .sym s := Iff.rfl

/-- All instructions of a code. -/
def Code.All (P : Instr → Prop) : Code → Prop
  | .instr i => P i
  | .seq a b => a.All P ∧ b.All P
  | .skipIf _ c => c.All P
  | .branch t e => t.All P ∧ e.All P
  | .loop c => c.All P
  | .chain c => c.All P
  | _ => True

theorem Code.All.imp {P Q : Instr → Prop} (h : ∀ i, P i → Q i) {c : Code} : c.All P → c.All Q := by
  induction c with
  | instr i => exact h i
  | seq a b iha ihb => exact fun hc => ⟨iha hc.1, ihb hc.2⟩
  | branch a b iha ihb => exact fun hc => ⟨iha hc.1, ihb hc.2⟩
  | skipIf _ c ih => exact ih
  | loop c ih => exact ih
  | chain c ih => exact ih
  | _ => exact fun _ => trivial

/-- A function in a code is in one of its instructions. -/
theorem Code.All.hasFn {Q : Bytecode → Prop} {c : Code} (h : c.All fun i => ∀ b, i.HasFn b → Q b) {b : Bytecode}
    (hb : c.HasFn b) : Q b := by
  induction c with
  | instr i => exact h b hb
  | seq a b iha ihb => exact hb.elim (iha h.1) (ihb h.2)
  | branch a b iha ihb => exact hb.elim (iha h.1) (ihb h.2)
  | skipIf _ c ih => exact ih h hb
  | loop c ih => exact ih h hb
  | chain c ih => exact ih h hb
  | _ => exact hb.elim

/-- The code of a function has a layout, its operands are right, and so on for the functions inside. -/
inductive RightCode : Bytecode → Prop where
  | mk {bc : Bytecode} {c : Code} (layout : Fits bc → Layout bc 0 bc.data.length 0 0 0 c)
      (within : c.All (Instr.Within bc.slotCount bc.upvalueCount)) (fns : ∀ b, c.HasFn b → RightCode b) : RightCode bc

/-- An instruction with right operands. -/
def Instr.Right (N U : Nat) (i : Instr) : Prop := i.Within N U ∧ ∀ b, i.HasFn b → RightCode b

/-- Code with right operands. -/
def Right (N U : Nat) (c : Code) : Prop := c.All (Instr.Right N U)

section
variable {N U : Nat}

namespace Right

theorem nop : Right N U .nop := trivial
theorem brk : Right N U .brk := trivial
theorem cont : Right N U .cont := trivial
theorem breakIf {b : Bool} : Right N U (.breakIf b) := trivial
theorem exitIf {b : Bool} : Right N U (.exitIf b) := trivial
theorem seq {a b : Code} (h1 : Right N U a) (h2 : Right N U b) : Right N U (.seq a b) := ⟨h1, h2⟩
theorem branch {a b : Code} (h1 : Right N U a) (h2 : Right N U b) : Right N U (.branch a b) := ⟨h1, h2⟩
theorem skipIf {b : Bool} {c : Code} (h : Right N U c) : Right N U (.skipIf b c) := h
theorem loop {c : Code} (h : Right N U c) : Right N U (.loop c) := h
theorem chain {c : Code} (h : Right N U c) : Right N U (.chain c) := h
theorem nil : Right N U (.block []) := trivial
theorem cons {c : Code} {cs : List Code} (h1 : Right N U c) (h2 : Right N U (.block cs)) : Right N U (.block (c :: cs)) :=
  ⟨h1, h2⟩
theorem op {o : Opcode} : Right N U (.op o) := ⟨trivial, fun _ h => h.elim⟩
theorem sym {o : Opcode} {s : String} (h : o ≠ .pushConst) : Right N U (.sym o s) :=
  ⟨(Instr.within_const ..).2 (by rw [if_neg h]; exact ⟨s, rfl⟩), fun _ h => h.elim⟩
theorem const {c : Const} (h : c.Pushable) (hb : ∀ b n i, c ≠ .fn b n i) : Right N U (.instr (.const .pushConst c)) :=
  ⟨(Instr.within_const ..).2 (by rw [if_pos rfl]; exact h), fun b h => by
    cases c with
    | fn b n i => exact absurd rfl (hb _ _ _)
    | _ => exact h.elim⟩

theorem ofNat_lt {n k : Nat} (h : n < k) : (UInt8.ofNat n).toNat < k := by
  have : (UInt8.ofNat n).toNat ≤ n := by
    rw [UInt8.toNat_ofNat']
    exact Nat.mod_le _ _
  omega

theorem num {o : Opcode} {n : Nat} (h1 : o.usesLocal = false) (h2 : o.usesCaptured = false) : Right N U (.num o n) :=
  ⟨⟨fun h => by (rw [h1] at h; cases h), fun h => by (rw [h2] at h; cases h)⟩, fun _ h => h.elim⟩
theorem loc {o : Opcode} {n : Nat} (h : n < N) (h2 : o.usesCaptured = false := by rfl) : Right N U (.num o n) :=
  ⟨⟨fun _ => ofNat_lt h, fun h => by (rw [h2] at h; cases h)⟩, fun _ h => h.elim⟩
theorem up {o : Opcode} {n : Nat} (h : n < U) (h1 : o.usesLocal = false := by rfl) : Right N U (.num o n) :=
  ⟨⟨fun h => by (rw [h1] at h; cases h), fun _ => ofNat_lt h⟩, fun _ h => h.elim⟩

end Right
end

/-! ## Sizes -/

/-- The captured variables of the innermost function. -/
def Env.upCount : Env → Nat
  | [] => 0
  | c :: _ => c.upvalues.length

/-- No function captures less. -/
def UpsLe : Env → Env → Prop
  | [], [] => True
  | c :: r, c' :: r' => c.upvalues.length ≤ c'.upvalues.length ∧ UpsLe r r'
  | _, _ => False

theorem UpsLe.refl (g : Env) : UpsLe g g := by
  induction g with
  | nil => trivial
  | cons c r ih => exact ⟨Nat.le_refl _, ih⟩

theorem UpsLe.trans {a b c : Env} (h1 : UpsLe a b) (h2 : UpsLe b c) : UpsLe a c := by
  induction a generalizing b c with
  | nil =>
    match b, c, h1, h2 with
    | [], [], _, _ => trivial
  | cons x a ih =>
    match b, c, h1, h2 with
    | y :: b, z :: c, h1, h2 => exact ⟨Nat.le_trans h1.1 h2.1, ih h1.2 h2.2⟩

theorem UpsLe.top {g g' : Env} (h : UpsLe g g') : g.upCount ≤ g'.upCount := by
  match g, g', h with
  | [], [], _ => exact Nat.le_refl _
  | _ :: _, _ :: _, h => exact h.1

theorem exts_upsLe {g g' : List Ctx} (h : CtxExts g g') : UpsLe g g' := by
  induction h with
  | nil => trivial
  | cons h _ ih =>
    obtain ⟨more, e⟩ := h.upvalues
    exact ⟨by rw [e, List.length_append]; omega, ih⟩

theorem upsLe_scopes {c : Ctx} {rest : Env} {s : ScopeStack} : UpsLe (c :: rest) ({ c with scopes := s } :: rest) :=
  ⟨Nat.le_refl _, .refl _⟩

theorem upsRel : EnvRel UpsLe where
  refl := .refl
  trans := .trans
  pushScope {g g' k e} h := by
    match g, h with
    | c :: rest, h => cases h; exact upsLe_scopes
  popScope {g g' vars} h := by
    match g, h with
    | c :: rest, h =>
      unfold Env.popScope at h
      simp only at h
      split at h
      · cases h
      · cases h; exact upsLe_scopes
  addLocal {g g' x st slot} h := by
    match g, h with
    | c :: rest, h =>
      unfold Env.addLocal at h
      simp only at h
      split at h
      · cases h
      · cases h; exact upsLe_scopes
  setState g x st := by
    cases g with
    | nil => trivial
    | cons c rest => exact upsLe_scopes
  setTemps g n := by
    cases g with
    | nil => trivial
    | cons c rest => exact ⟨Nat.le_refl _, .refl _⟩
  setCallDepth {g g' d} h := by
    match g, h with
    | c :: rest, h =>
      unfold Env.setCallDepth at h
      simp only at h
      split at h
      · cases h
      · cases h; exact upsLe_scopes
  resolve {g g' x i} h := exts_upsLe (resolve_ext x g i g' h)
  fn {g g' fn k} h := h.2

/-- Both sizes are bounded. -/
def Small (N U : Nat) (g : Env) : Prop := g.slotCount ≤ N ∧ g.upCount ≤ U

/-- The invariants are kept and sizes do not shrink. -/
def SizeRel (g g' : Env) : Prop := SlotRel g g' ∧ UpsLe g g'

theorem sizeRel : EnvRel SizeRel where
  refl g := ⟨slotRel.refl g, upsRel.refl g⟩
  trans h1 h2 := ⟨slotRel.trans h1.1 h2.1, upsRel.trans h1.2 h2.2⟩
  pushScope h := ⟨slotRel.pushScope h, upsRel.pushScope h⟩
  popScope h := ⟨slotRel.popScope h, upsRel.popScope h⟩
  addLocal h := ⟨slotRel.addLocal h, upsRel.addLocal h⟩
  setState g x st := ⟨slotRel.setState g x st, upsRel.setState g x st⟩
  setTemps g n := ⟨slotRel.setTemps g n, upsRel.setTemps g n⟩
  setCallDepth h := ⟨slotRel.setCallDepth h, upsRel.setCallDepth h⟩
  resolve h := ⟨slotRel.resolve h, upsRel.resolve h⟩
  fn h := ⟨slotRel.fn h.1, upsRel.fn h.2⟩

theorem SizeRel.inv {g g' : Env} (h : SizeRel g g') (inv : StackInv g) : StackInv g' := (h.1 inv).1

theorem SizeRel.small {N U : Nat} {g g' : Env} (h : SizeRel g g') (inv : StackInv g) (hs : Small N U g') : Small N U g :=
  ⟨Nat.le_trans (h.1 inv).2.top hs.1, Nat.le_trans h.2.top hs.2⟩

section
variable {N U : Nat} {g g' : Env}

theorem lookup_small {x : String} {v : ScopeVar} (inv : StackInv g) (h : g.lookup x = some v) (hs : Small N U g) : v.slot < N :=
  Nat.lt_of_lt_of_le (lookup_slot_lt inv h) hs.1

theorem addLocal_small {x : String} {st : VarState} {slot : Nat} (inv : StackInv g) (h : g.addLocal x st = some (slot, g'))
    (hs : Small N U g') : slot < N := Nat.lt_of_lt_of_le (addLocal_slot_lt inv h) hs.1

theorem resolve_small {x : String} {i : Nat} (h : resolveUpvalue x g = some (i, g')) (hs : Small N U g') : i < U := by
  obtain ⟨c, rest, rfl, hi⟩ := resolveUpvalue_index_lt x g g' i h
  exact Nat.lt_of_lt_of_le hi hs.2

theorem IdentGen.right {x : String} {i : Instr} (h : IdentGen g x i g') (inv : StackInv g) (hs : Small N U g') :
    Right N U (.instr i) := by
  cases h with
  | «local» h => exact Right.loc (lookup_small inv h hs)
  | captured _ hr => exact Right.up (resolve_small hr hs)
  | global => exact Right.sym (by decide)

theorem TypeGen.right {slot : Nat} {t : Option TypeAnn} {c : Code} (h : TypeGen g slot t c g') (inv : StackInv g)
    (hs : Small N U g') (hl : slot < N) : Right N U c := by
  cases h with
  | none => exact .nop
  | @some _ _ t _ h =>
    refine .seq (h.right inv hs) (.loc hl ?_)
    cases t.isNullable <;> rfl

theorem ReturnGen.right {c : Code} (h : ReturnGen g c g') (inv : StackInv g) (hs : Small N U g') : Right N U c := by
  cases h with
  | plain => exact .op
  | typed _ _ h => exact .seq (h.right inv hs) .op

theorem ParamsGen.right {args : List FnArg} {c : Code} (h : ParamsGen g args c g') (inv : StackInv g) (hs : Small N U g') :
    Right N U c := by
  induction h with
  | nil => exact .nop
  | cons hl ht hr ih =>
    have i1 := (sizeRel.addLocal hl).inv inv
    have i2 := (ht.rel sizeRel).inv i1
    have s2 := (hr.rel sizeRel).small i2 hs
    exact .seq (ht.right i1 s2 (addLocal_small inv hl ((ht.rel sizeRel).small i1 s2))) (ih i2 hs)

theorem ArgsGen.right {k : FnKind} {args : List FnArg} {c : Code} (h : ArgsGen g k args c g') (inv : StackInv g)
    (hs : Small N U g') : Right N U c := by
  cases h with
  | noReceiver _ hl hp => exact hp.right ((sizeRel.addLocal hl).inv inv) hs
  | receiver _ hp => exact hp.right inv hs

theorem FnEndGen.right {k : FnKind} {c : Code} (h : FnEndGen g k c g') (inv : StackInv g) (hs : Small N U g') :
    Right N U c := by
  cases h with
  | constructor h => exact .cons .op (.cons (.loc (lookup_small inv h hs)) (.cons .op .nil))
  | other _ h => exact h.right inv hs

theorem closeCode_right {vs : List ScopeVar} (h : ∀ v ∈ vs, v.slot < N) : Right N U (closeCode vs) := by
  induction vs with
  | nil => exact .nop
  | cons v vs ih =>
    refine .seq (ih fun v hv => h v (List.mem_cons_of_mem _ hv)) ?_
    split
    · exact .loc (h v (List.mem_cons_self ..))
    · exact .nop

theorem popScope_right {vs : List ScopeVar} (inv : StackInv g) (h : g.popScope = some (vs, g')) (hs : Small N U g) :
    Right N U (closeCode vs) := closeCode_right fun _ hv => Nat.lt_of_lt_of_le (popScope_slot_lt inv h hv) hs.1

theorem topVars_slot_lt (inv : StackInv g) {v : ScopeVar} (h : v ∈ g.topVars) : v.slot < g.slotCount := by
  match g, h with
  | c :: rest, h =>
    unfold Env.topVars at h
    simp only at h
    split at h
    · rename_i sc hsc
      refine visible_slot_lt inv.2.1 ?_
      unfold ScopeStack.top? at hsc
      exact List.mem_flatMap.2 ⟨sc, List.mem_of_head? hsc, h⟩
    · cases h

theorem dropCode_right (n : Nat) : Right N U (dropCode n) := by
  induction n with
  | zero => exact .nop
  | succ n ih => exact .seq .op (.seq .op ih)

theorem fieldLocals_right {ls : List (String × Nat)} (h : ∀ p ∈ ls, p.2 < N) : Right N U (fieldLocalsCode ls) := by
  induction ls with
  | nil => exact .nop
  | cons x ls ih =>
    exact .cons (.num rfl rfl) (.cons (.sym (by decide)) (.cons (.loc (h x (List.mem_cons_self ..))) (.cons .op (.cons
      (ih fun p hp => h p (List.mem_cons_of_mem _ hp)) .nil))))

theorem addLocals_right {xs : List String} {ls : List (String × Nat)} (inv : StackInv g) (h : g.addLocals xs = some (ls, g'))
    (hs : Small N U g') : Right N U (fieldLocalsCode ls) :=
  fieldLocals_right fun p hp => Nat.lt_of_lt_of_le (addLocals_slot_lt inv h p hp) hs.1

theorem storeMember_right (k : FnKind) {slot : Nat} (name : String) (h : slot < N) : Right N U (storeMember k slot name) := by
  unfold storeMember
  split
  · exact .seq (.sym (by decide)) (.loc h)
  · exact .seq (.sym (by decide)) (.loc h)
  · exact .cons (.sym (by decide)) (.cons .op (.cons (.loc h) .nil))

theorem intCode_right (i : Int) : Right N U (intCode i) := by
  unfold intCode
  split
  · exact .op
  · split
    · exact .op
    · exact .const trivial nofun

/-- The bytecode of a function with right code. -/
theorem FnCode.right {fn : Ctx} {c : Code} {bc : Bytecode} (hc : FnCode fn c bc)
    (h : Right fn.scopes.slotCount fn.upvalues.length c) : RightCode bc := by
  refine .mk hc.layout (c := c) ?_ fun b hb => Code.All.hasFn (Code.All.imp (fun i hi => hi.2) h) hb
  rw [hc.slots, hc.captured]
  exact Code.All.imp (fun i hi => hi.1) h

theorem fnInstr_right {fn : Ctx} {c : Code} {bc : Bytecode} {name : String} {id : Nat} (hc : FnCode fn c bc)
    (h : Right fn.scopes.slotCount fn.upvalues.length c) (inv : StackInv (fn :: g)) (hs : Small N U g) :
    Right N U (.instr (fnInstr bc name id fn.upvalues)) := by
  have good := hc.right h
  unfold fnInstr
  split
  · rename_i he
    refine ⟨?_, fun b h => by cases h; exact good⟩
    refine (Instr.within_const ..).2 ?_
    rw [if_pos rfl]
    show bc.upvalueCount = 0
    rw [hc.captured, List.isEmpty_iff.1 he]
    rfl
  · refine ⟨fun d hd => ?_, fun b h => by cases h; exact good⟩
    have := inv.2.2.1 d hd
    cases d with
    | outer j m =>
      obtain ⟨p, ps, rfl, d, hd, -⟩ := this
      exact Nat.lt_of_lt_of_le (List.getElem?_eq_some_iff.1 hd).1 hs.2
    | parentLocal s m => exact Nat.lt_of_lt_of_le (captured_slot_lt inv hd rfl) hs.1

end

theorem pushFn_inv {g : Env} (inv : StackInv g) (k : CompilerKind) : StackInv (g.pushFn k) :=
  ⟨List.Pairwise.nil, scopeInv_new _, by simp, inv⟩

/-- The code of a function. -/
theorem fn_right {g g' : Env} {k : CompilerKind} {nd : Node} {c : Code} {fn : Ctx} {bc : Bytecode} {name : String} {id N U : Nat}
    (hb : Gen (g.pushFn k) nd c (fn :: g')) (hc : FnCode fn c bc)
    (ih : ∀ N U, StackInv (g.pushFn k) → Small N U (fn :: g') → (∀ k its slot, nd = .cls k its slot → slot < N) → Right N U c)
    (hn : ∀ k its slot, nd ≠ .cls k its slot) (inv : StackInv g) (hs : Small N U g') :
    Right N U (.instr (fnInstr bc name id fn.upvalues)) :=
  fnInstr_right hc (ih _ _ (pushFn_inv inv k) ⟨Nat.le_refl _, Nat.le_refl _⟩ fun _ _ _ h => absurd h (hn _ _ _))
    ((hb.rel sizeRel).inv (pushFn_inv inv k)) hs

theorem fn_inv {g g' : Env} {k : CompilerKind} {nd : Node} {c : Code} {fn : Ctx}
    (hb : Gen (g.pushFn k) nd c (fn :: g')) (inv : StackInv g) : StackInv g' :=
  ((hb.rel sizeRel).inv (pushFn_inv inv k)).2.2.2

/-- All source generates code with right operands. -/
theorem Gen.right {g g' : Env} {nd : Node} {c : Code} (h : Gen g nd c g') :
    ∀ N U, StackInv g → Small N U g' → (∀ k its slot, nd = .cls k its slot → slot < N) → Right N U c := by
  induction h with
  | @ident g g' y i h => intro N U inv hs _; exact h.right inv hs
  | @unit g => intro N U inv hs _; exact .op
  | @null g => intro N U inv hs _; exact .op
  | @bool g b => intro N U inv hs _; exact .op
  | @int g i => intro N U inv hs _; exact intCode_right i
  | @float g f c h =>
    intro N U inv hs _
    cases h with
    | zero => exact .op
    | one => exact .op
    | other => exact .const trivial nofun
  | @str g s => intro N U inv hs _; exact .const trivial nofun
  | @anonFn g g' args ret body c fn bc name id hg hc ih => intro N U inv hs _; exact fn_right hg hc ih nofun inv hs
  | @object g g' fs c h ih => intro N U inv hs _; exact .seq .op (ih N U inv hs nofun)
  | @list g g' es c h ih => intro N U inv hs _; exact .seq (ih N U inv hs nofun) (.num rfl rfl)
  | @assignLocal g g' y rhs c v hv hm h ih =>
    intro N U inv hs _
    exact .seq (ih N U inv hs nofun) (.loc (lookup_small inv hv ((h.rel sizeRel).small inv hs)))
  | @updateLocal g g' op y rhs c v o hv hm ho h ih =>
    intro N U inv hs _
    have hv := lookup_small inv hv ((h.rel sizeRel).small inv hs)
    exact .cons (.loc hv) (.cons (ih N U inv hs nofun) (.cons .op (.cons (.loc hv) .nil)))
  | @assignCaptured g g1 g' y rhs c i d hv hr hd hm h ih =>
    intro N U inv hs _
    have i1 := (sizeRel.resolve hr).inv inv
    exact .seq (ih N U i1 hs nofun) (.up (resolve_small hr ((h.rel sizeRel).small i1 hs)))
  | @updateCaptured g g1 g' op y rhs c i d o hv hr hd hm ho h ih =>
    intro N U inv hs _
    have i1 := (sizeRel.resolve hr).inv inv
    have hi := resolve_small hr ((h.rel sizeRel).small i1 hs)
    exact .cons (.up hi) (.cons (ih N U i1 hs nofun) (.cons .op (.cons (.up hi) .nil)))
  | @assignField g g1 g' e f rhs c1 c2 h1 h2 ih1 ih2 =>
    intro N U inv hs _
    have i1 := (h1.rel sizeRel).inv inv
    have s1 := (h2.rel sizeRel).small i1 hs
    exact .cons (ih1 N U inv s1 nofun) (.cons (ih2 N U i1 hs nofun) (.cons (.sym (by decide)) .nil))
  | @updateField g g1 g' op e f rhs c1 c2 o ho h1 h2 ih1 ih2 =>
    intro N U inv hs _
    have i1 := (h1.rel sizeRel).inv inv
    have s1 := (h2.rel sizeRel).small i1 hs
    exact .cons (ih1 N U inv s1 nofun) (.cons (.num rfl rfl) (.cons (.sym (by decide)) (.cons (ih2 N U i1 hs nofun)
      (.cons .op (.cons (.sym (by decide)) .nil)))))
  | @assignIndex g g1 g2 g' e i rhs c1 c2 c3 h1 h2 h3 ih1 ih2 ih3 =>
    intro N U inv hs _
    have i1 := (h1.rel sizeRel).inv inv
    have i2 := (h2.rel sizeRel).inv i1
    have s2 := (h3.rel sizeRel).small i2 hs
    have s1 := (h2.rel sizeRel).small i1 s2
    exact .cons (ih1 N U inv s1 nofun) (.cons (ih2 N U i1 s2 nofun) (.cons (ih3 N U i2 hs nofun) (.cons .op .nil)))
  | @updateIndex g g1 g2 g' op e i rhs c1 c2 c3 o ho h1 h2 h3 ih1 ih2 ih3 =>
    intro N U inv hs _
    have i1 := (h1.rel sizeRel).inv inv
    have i2 := (h2.rel sizeRel).inv i1
    have s2 := (h3.rel sizeRel).small i2 hs
    have s1 := (h2.rel sizeRel).small i1 s2
    exact .cons (ih1 N U inv s1 nofun) (.cons (ih2 N U i1 s2 nofun) (.cons (.num rfl rfl) (.cons (.num rfl rfl)
      (.cons .op (.cons (ih3 N U i2 hs nofun) (.cons .op (.cons .op .nil)))))))
  | @unary g g' op e c h ih => intro N U inv hs _; exact .seq (ih N U inv hs nofun) .op
  | @and g g1 g' a b c1 c2 h1 h2 ih1 ih2 =>
    intro N U inv hs _
    have i1 := (h1.rel sizeRel).inv inv
    have s1 := (h2.rel sizeRel).small i1 hs
    exact .cons (ih1 N U inv s1 nofun) (.cons (.num rfl rfl) (.cons .op (.cons (.skipIf (.cons .op
      (.cons (ih2 N U i1 hs nofun) (.cons .op .nil)))) .nil)))
  | @or g g1 g' a b c1 c2 h1 h2 ih1 ih2 =>
    intro N U inv hs _
    have i1 := (h1.rel sizeRel).inv inv
    have s1 := (h2.rel sizeRel).small i1 hs
    exact .cons (ih1 N U inv s1 nofun) (.cons (.num rfl rfl) (.cons .op (.cons (.skipIf (.cons .op
      (.cons (ih2 N U i1 hs nofun) (.cons .op .nil)))) .nil)))
  | @pipeline g g1 g' a b c1 c2 h1 h2 ih1 ih2 =>
    intro N U inv hs _
    have i1 := (h1.rel sizeRel).inv inv
    have s1 := (h2.rel sizeRel).small i1 hs
    exact .cons (ih1 N U inv s1 nofun) (.cons (ih2 N U i1 hs nofun) (.cons (.num rfl rfl) .nil))
  | @coalesce g g1 g' a b c1 c2 h1 h2 ih1 ih2 =>
    intro N U inv hs _
    have i1 := (h1.rel sizeRel).inv inv
    have s1 := (h2.rel sizeRel).small i1 hs
    exact .cons (ih1 N U inv s1 nofun) (.cons (.num rfl rfl) (.cons .op (.cons .op (.cons (.skipIf (.cons .op
      (.cons (ih2 N U i1 hs nofun) .nil))) .nil))))
  | @binary g g1 g' op a b c1 c2 o ho h1 h2 ih1 ih2 =>
    intro N U inv hs _
    have i1 := (h1.rel sizeRel).inv inv
    have s1 := (h2.rel sizeRel).small i1 hs
    exact .cons (ih1 N U inv s1 nofun) (.cons (ih2 N U i1 hs nofun) (.cons .op .nil))
  | @«is» g g1 g' e t c i hn h ht ih =>
    intro N U inv hs _
    have i1 := (h.rel sizeRel).inv inv
    have s1 := (ht.rel sizeRel).small i1 hs
    exact .cons (ih N U inv s1 nofun) (.cons (ht.right i1 hs) (.cons .op .nil))
  | @isNullable g g1 g2 g' e t c1 c2 i hn h1 h2 ht ih1 ih2 =>
    intro N U inv hs _
    have i1 := (h1.rel sizeRel).inv inv
    have i2 := (h2.rel sizeRel).inv i1
    have s2 := (ht.rel sizeRel).small i2 hs
    have s1 := (h2.rel sizeRel).small i1 s2
    exact .cons (ih1 N U inv s1 nofun) (.cons .op (.cons .op (.cons (.num rfl rfl) (.cons (.skipIf (.cons .op
      (.cons (ih2 N U i1 s2 nofun) (.cons (ht.right i2 hs) (.cons .op .nil))))) .nil))))
  | @varDecl g g1 g2 g' y m e t c slot ct h hl ht ih =>
    intro N U inv hs _
    have i1 := (h.rel sizeRel).inv inv
    have i2 := (sizeRel.addLocal hl).inv i1
    have s2 := (ht.rel sizeRel).small i2 hs
    have hv := addLocal_small i1 hl s2
    exact .cons (ih N U inv ((sizeRel.addLocal hl).small i1 s2) nofun) (.cons (.loc hv) (.cons (ht.right i2 hs hv) .nil))
  | @varDecls g g1 g' xs m e t c locals h hl ih =>
    intro N U inv hs _
    have i1 := (h.rel sizeRel).inv inv
    exact .seq (ih N U inv ((sizeRel.addLocals hl).small i1 hs) nofun) (addLocals_right i1 hl hs)
  | @fnDecl g g' name args ret body c fn bc id v hu hg hc hv hst ih =>
    intro N U inv hs _
    have i1 := fn_inv hg inv
    have s1 := (sizeRel.setState g' name (.function true)).small i1 hs
    exact .seq (fn_right hg hc ih nofun inv s1) (.loc (lookup_small i1 hv s1))
  | @opDecl g g' op args ret body c fn bc id hu hg hc ih =>
    intro N U inv hs _
    exact .cons (fn_right hg hc ih nofun inv hs) (.cons (.sym (by decide)) (.cons .op .nil))
  | @classDecl g g1 g2 g3 g4 g5 g' name base its cb superSlot v ci vars h0 hbs hsup hv hst hg hi hp ihb ihi =>
    intro N U inv hs _
    have i1 := (sizeRel.pushScope h0).inv inv
    have i2 := (hbs.rel sizeRel).inv i1
    have i3 := (sizeRel.addLocal hsup).inv i2
    have r34 : SizeRel g3 g4 := by
      rw [hg]
      split
      · exact sizeRel.setState _ _ _
      · exact sizeRel.refl _
    have i4 := r34.inv i3
    have i5 := (hi.rel sizeRel).inv i4
    have s5 := (sizeRel.popScope hp).small i5 hs
    have s4 := (hi.rel sizeRel).small i4 s5
    have s3 := r34.small i3 s4
    have hvs := lookup_small i3 hv s3
    exact .cons (ihb N U i1 ((sizeRel.addLocal hsup).small i2 s3) nofun) (.cons (.loc (addLocal_small i2 hsup s3))
      (.cons (.sym (by decide)) (.cons (.loc hvs) (.cons (ihi N U i4 s5 fun _ _ _ h => by cases h; exact hvs)
        (.cons (popScope_right i5 hp s5) .nil)))))
  | @importItems g g' its path locals hl =>
    intro N U inv hs _
    exact .seq (.sym (by decide)) (addLocals_right inv hl hs)
  | @importModule g g1 g' m its path locals slot hl hm =>
    intro N U inv hs _
    have i1 := (sizeRel.addLocals hl).inv inv
    exact .cons (.sym (by decide)) (.cons (addLocals_right inv hl ((sizeRel.addLocal hm).small i1 hs))
      (.cons (.loc (addLocal_small i1 hm hs)) .nil))
  | @exportDecl g g' e c d v n hk hd hd1 hv h hn ih =>
    intro N U inv hs _
    exact .cons (.loc (lookup_small inv hv ((h.rel sizeRel).small inv hs))) (.cons (ih N U inv hs nofun)
      (.cons (.sym (by decide)) .nil))
  | @ifExpr g g1 g2 g' a b e c1 c2 c3 h1 h2 h3 ih1 ih2 ih3 =>
    intro N U inv hs _
    have i1 := (h1.rel sizeRel).inv inv
    have i2 := (h2.rel sizeRel).inv i1
    have s2 := (h3.rel sizeRel).small i2 hs
    exact .seq (ih1 N U inv ((h2.rel sizeRel).small i1 s2) nofun) (.branch (ih2 N U i1 s2 nofun) (ih3 N U i2 hs nofun))
  | @loop g g1 g2 g' es t c vars h0 h hp ih =>
    intro N U inv hs _
    have i1 := (sizeRel.pushScope h0).inv inv
    exact .seq (.loop (ih N U i1 ((sizeRel.popScope hp).small ((h.rel sizeRel).inv i1) hs) nofun)) .op
  | @whileLoop g g1 g2 g3 g' a es t c1 c2 vars h0 h1 h2 hp ih1 ih2 =>
    intro N U inv hs _
    have i1 := (sizeRel.pushScope h0).inv inv
    have i2 := (h1.rel sizeRel).inv i1
    have s3 := (sizeRel.popScope hp).small ((h2.rel sizeRel).inv i2) hs
    exact .seq (.loop (.cons (ih1 N U i1 ((h2.rel sizeRel).small i2 s3) nofun) (.cons .breakIf
      (.cons (ih2 N U i2 s3 nofun) .nil)))) .op
  | @rangeLoop g g1 g2 g3 g4 g5 g' y op a b body c1 c2 c3 slot vars hop h1 h2 h0 hl h3 hp ih1 ih2 ih3 =>
    intro N U inv hs _
    have i1 := (h1.rel sizeRel).inv inv
    have i2 := (h2.rel sizeRel).inv i1
    have i3 := (sizeRel.pushScope h0).inv i2
    have i4 := (sizeRel.addLocal hl).inv i3
    have i5 := (h3.rel sizeRel).inv i4
    have s5 := (sizeRel.popScope hp).small i5 hs
    have s4 := (h3.rel sizeRel).small i4 s5
    have s2 := (sizeRel.pushScope h0).small i2 ((sizeRel.addLocal hl).small i3 s4)
    have hv := addLocal_small i3 hl s4
    exact .cons (ih1 N U inv ((h2.rel sizeRel).small i1 s2) nofun) (.cons (ih2 N U i1 s2 nofun) (.cons (.loop
      (.cons (.loc hv) (.cons (.num rfl rfl) (.cons .op (.cons .breakIf (.cons (ih3 N U i4 s5 nofun) (.cons .op
        (.cons (.loc hv) (.cons .op (.cons .op (.cons (popScope_right i5 hp s5) .nil)))))))))))
      (.cons .op (.cons .op .nil))))
  | @forLoop g g1 g2 g3 g4 g' y source body c1 c2 slot vars hns h1 h0 hl h2 hp ih1 ih2 =>
    intro N U inv hs _
    have i1 := (h1.rel sizeRel).inv inv
    have i2 := (sizeRel.pushScope h0).inv i1
    have i3 := (sizeRel.addLocal hl).inv i2
    have i4 := (h2.rel sizeRel).inv i3
    have s4 := (sizeRel.popScope hp).small i4 hs
    have s3 := (h2.rel sizeRel).small i3 s4
    have s1 := (sizeRel.pushScope h0).small i1 ((sizeRel.addLocal hl).small i2 s3)
    have hv := addLocal_small i2 hl s3
    have hf : Right N U (.instr (.fieldToLocal "value" (UInt8.ofNat slot))) := ⟨Right.ofNat_lt hv, fun _ h => h.elim⟩
    exact .cons (ih1 N U inv s1 nofun) (.cons (.sym (by decide)) (.cons (.num rfl rfl) (.cons (.sym (by decide)) (.cons (.loop
      (.cons (.num rfl rfl) (.cons (.num rfl rfl) (.cons (.num rfl rfl) (.cons (.sym (by decide)) (.cons .breakIf
        (.cons hf (.cons .op (.cons (ih2 N U i3 s4 nofun) (.cons .op (.cons (popScope_right i4 hp s4) .nil)))))))))))
      (.cons .op (.cons .op (.cons .op .nil)))))))
  | @break_ g h => intro N U inv hs _; exact .brk
  | @continue_ g h => intro N U inv hs _; exact .cont
  | @blockExpr g g' es t c h ih => intro N U inv hs _; exact ih N U inv hs nofun
  | @returnValue g g1 g' e k c cr hk hf h hr ih =>
    intro N U inv hs _
    have i1 := (h.rel sizeRel).inv inv
    exact .cons (ih N U inv ((hr.rel sizeRel).small i1 hs) nofun) (.cons (dropCode_right _) (.cons (hr.right i1 hs) .nil))
  | @returnUnit g g' k cr hk hf hr =>
    intro N U inv hs _
    exact .cons .op (.cons (dropCode_right _) (.cons (hr.right inv hs) .nil))
  | @returnSelf g g' cr v hk hv hr =>
    intro N U inv hs _
    exact .cons (.loc (lookup_small inv hv ((hr.rel sizeRel).small inv hs))) (.cons (dropCode_right _)
      (.cons (hr.right inv hs) .nil))
  | @chain g g1 g2 g' e c d d' he hd h0 h hd' h1 ih =>
    intro N U inv hs _
    have i1 := (sizeRel.setCallDepth h0).inv inv
    have t := ih N U i1 ((sizeRel.setCallDepth h1).small ((h.rel sizeRel).inv i1) hs) nofun
    split
    · exact .chain t
    · exact t
  | @nullProp g g' e c h ih =>
    intro N U inv hs _
    exact .cons (ih N U inv hs nofun) (.cons (.num rfl rfl) (.cons .op (.cons .op (.cons .exitIf .nil))))
  | @errProp g g1 g' e k c cr hk hf h hr ih =>
    intro N U inv hs _
    have i1 := (h.rel sizeRel).inv inv
    exact .cons (ih N U inv ((hr.rel sizeRel).small i1 hs) nofun) (.cons (.num rfl rfl) (.cons (.sym (by decide))
      (.cons (.skipIf (.seq (dropCode_right _) (hr.right i1 hs))) (.cons (.sym (by decide)) .nil))))
  | @field g g' e f c h ih => intro N U inv hs _; exact .seq (ih N U inv hs nofun) (.sym (by decide))
  | @superAccess g g1 g' f cls i1 i2 k hk hm h1 h2 =>
    intro N U inv hs _
    have inv1 := (h1.rel sizeRel).inv inv
    exact .cons (h1.right inv ((h2.rel sizeRel).small inv1 hs)) (.cons (h2.right inv1 hs) (.cons (.sym (by decide)) .nil))
  | @call g g1 g2 g' e es c1 c2 h1 h2 hg ih1 ih2 =>
    intro N U inv hs _
    subst hg
    have i1 := (h1.rel sizeRel).inv inv
    have s2 := (sizeRel.setTemps g2 g1.temps).small ((h2.rel sizeRel).inv i1) hs
    exact .cons (ih1 N U inv ((h2.rel sizeRel).small i1 s2) nofun) (.cons (ih2 N U i1 s2 nofun) (.cons (.num rfl rfl) .nil))
  | @superCall g g1 g' es v c i hv h hi ih =>
    intro N U inv hs _
    have i1 := (h.rel sizeRel).inv inv
    have i2 := (sizeRel.setTemps g1 g.temps).inv i1
    have s1 := (sizeRel.setTemps g1 g.temps).small i1 ((hi.rel sizeRel).small i2 hs)
    exact .cons (.loc (lookup_small inv hv ((h.rel sizeRel).small inv s1))) (.cons (ih N U inv s1 nofun)
      (.cons (hi.right i2 hs) (.cons (.num rfl rfl) .nil)))
  | @index g g1 g2 g3 g4 g' e i c1 c2 d h1 hd h0 h2 h3 hg ih1 ih2 =>
    intro N U inv hs _
    subst hg
    have i1 := (h1.rel sizeRel).inv inv
    have i2 := (sizeRel.setTemps g2 (g2.temps + 1)).inv ((sizeRel.setCallDepth h0).inv i1)
    have i3 := (h2.rel sizeRel).inv i2
    have s3 := (sizeRel.setTemps g3 (g3.temps - 1)).small i3
      ((sizeRel.setCallDepth h3).small ((sizeRel.setTemps g3 (g3.temps - 1)).inv i3) hs)
    have s1 := (sizeRel.setCallDepth h0).small i1 ((sizeRel.setTemps g2 (g2.temps + 1)).small
      ((sizeRel.setCallDepth h0).inv i1) ((h2.rel sizeRel).small i2 s3))
    exact .cons (ih1 N U inv s1 nofun) (.cons (ih2 N U i2 s3 nofun) (.cons .op .nil))
  | @seqNil g g' t c h ih => intro N U inv hs _; exact ih N U inv hs nofun
  | @seqCons g g1 g' e es t c1 c2 h1 h2 ih1 ih2 =>
    intro N U inv hs _
    have i1 := (h1.rel sizeRel).inv inv
    exact .cons (ih1 N U inv ((h2.rel sizeRel).small i1 hs) nofun) (.cons .op (.cons (ih2 N U i1 hs nofun) .nil))
  | @elsSome g g' e c h ih => intro N U inv hs _; exact ih N U inv hs nofun
  | @elsNone g => intro N U inv hs _; exact .op
  | @itemsNil g => intro N U inv hs _; exact .nop
  | @itemsCons g g1 g' e es c1 c2 h1 h2 ih1 ih2 =>
    intro N U inv hs _
    have i1 := (h1.rel sizeRel).inv inv
    exact .seq (ih1 N U inv ((h2.rel sizeRel).small i1 hs) nofun) (ih2 N U i1 hs nofun)
  | @argsNil g => intro N U inv hs _; exact .nop
  | @argsCons g g1 g2 g3 g' e es c1 c2 d hd h0 h1 h2 h3 ih1 ih2 =>
    intro N U inv hs _
    have i1 := (sizeRel.setTemps g1 (g1.temps + 1)).inv ((sizeRel.setCallDepth h0).inv inv)
    have i2 := (h1.rel sizeRel).inv i1
    have i3 := (sizeRel.setCallDepth h2).inv i2
    exact .seq (ih1 N U i1 ((sizeRel.setCallDepth h2).small i2 ((h3.rel sizeRel).small i3 hs)) nofun) (ih2 N U i3 hs nofun)
  | @fieldsNil g => intro N U inv hs _; exact .nop
  | @fieldsCons g g1 g' f e fs c1 c2 h1 h2 ih1 ih2 =>
    intro N U inv hs _
    have i1 := (h1.rel sizeRel).inv inv
    exact .cons (.num rfl rfl) (.cons (ih1 N U inv ((h2.rel sizeRel).small i1 hs) nofun) (.cons (.sym (by decide))
      (.cons .op (.cons (ih2 N U i1 hs nofun) .nil))))
  | @baseSome g g' e c h ih => intro N U inv hs _; exact ih N U inv hs nofun
  | @baseNone g g' i h => intro N U inv hs _; exact h.right inv hs
  | @clsNil g k slot => intro N U inv hs _; exact .nop
  | @clsFn g g1 g' k slot name args ret body rest c1 c2 fk fn bc id hk hr hu hg hc h2 ih1 ih2 =>
    intro N U inv hs hsl
    have hsl := hsl _ _ _ rfl
    have i1 := fn_inv hg inv
    exact .cons (fn_right hg hc ih1 nofun inv ((h2.rel sizeRel).small i1 hs)) (.cons (storeMember_right _ _ hsl)
      (.cons (ih2 N U i1 hs fun _ _ _ h => by cases h; exact hsl) .nil))
  | @clsOp g g1 g' k slot op args ret body rest c1 c2 a fn bc id ha hat hu hg hc h2 ih1 ih2 =>
    intro N U inv hs hsl
    have hsl := hsl _ _ _ rfl
    have i1 := fn_inv hg inv
    exact .cons (fn_right hg hc ih1 nofun inv ((h2.rel sizeRel).small i1 hs)) (.cons (.sym (by decide)) (.cons (.loc hsl)
      (.cons (ih2 N U i1 hs fun _ _ _ h => by cases h; exact hsl) .nil)))
  | @block g g1 g2 g3 g' k es t c vars h0 hsc h hp ih =>
    intro N U inv hs _
    have i1 := (sizeRel.pushScope h0).inv inv
    have i2 := (sizeRel.scanDecls hsc).inv i1
    have i3 := (h.rel sizeRel).inv i2
    have s3 := (sizeRel.popScope hp).small i3 hs
    refine .cons (ih N U i2 s3 nofun) (.cons ?_ (.cons (popScope_right i3 hp s3) .nil))
    cases k with
    | loop => exact .op
    | block => exact .nop
  | @fnBody g g1 g2 g3 g4 g5 g' k args es t c1 c2 c3 vars hsup h0 ha hsc h hv he hp ih =>
    intro N U inv hs _
    simp only [Option.map_eq_some_iff] at hp
    obtain ⟨⟨vars', g6⟩, hp, rfl⟩ := hp
    have i1 := (sizeRel.pushScope h0).inv inv
    have i2 := (ha.rel sizeRel).inv i1
    have i3 := (sizeRel.scanDecls hsc).inv i2
    have i4 := (h.rel sizeRel).inv i3
    have i5 := (he.rel sizeRel).inv i4
    have s5 := (sizeRel.popScope hp).small i5 hs
    have s4 := (he.rel sizeRel).small i4 s5
    have s2 := (sizeRel.scanDecls hsc).small i2 ((h.rel sizeRel).small i3 s4)
    refine .cons (ha.right i1 s2) (.cons (ih N U i3 s4 nofun) (.cons (closeCode_right fun v hmem => ?_) (.cons (he.right i4 s5) .nil)))
    subst hv
    exact Nat.lt_of_lt_of_le (topVars_slot_lt i4 hmem) s4.1

end Dice
