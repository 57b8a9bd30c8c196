import Verif.BalanceExec
import Verif.GenEnv

/-!
# Which programs keep the stack in balance

The compiler pushes and pops temporaries without a general record of how many there are, so a jump out of the
middle of an expression can leave values behind or take too many.  `balanced` is a check on the syntax tree
that says when this does not happen; it follows the heights at which each operand is evaluated.
-/

namespace Dice

/-- Where an expression stands in its function: how many values of the function are on the stack (`here`), how
many of them the compiler has counted (`temps`), the heights that `break` and `continue` need, the height at
which the current chain started, and how many of the lowest values must survive. -/
structure Heights where
  low : Nat := 0
  here : Nat := 0
  temps : Nat := 0
  brk : Option Nat := none
  cont : Option Nat := none
  chain : Option Nat := none

namespace Heights

/-- One more operand below. -/
def over (n : Nat) (x : Heights) : Heights := { x with here := x.here + n }

/-- Inside a chain. -/
def enter (x : Heights) : Heights :=
  match x.chain with
  | none => { x with chain := some x.here }
  | some _ => x

/-- In an argument: below it `n` values, counted by the compiler. -/
def arg (n : Nat) (x : Heights) : Heights :=
  { x with here := x.here + n, temps := x.temps + n, chain := none }

/-- In a scope of its own. -/
def inner (x : Heights) : Heights := { x with chain := none }

/-- In the body of a loop that starts at the current height. -/
def looping (x : Heights) : Heights := { x with brk := some x.here, cont := some x.here, chain := none }

/-- In the body of a `for` loop, above one value, with breaks expecting `n` values more. -/
def iterating (n : Nat) (x : Heights) : Heights :=
  { x with here := x.here + 1, brk := some (x.here + n), cont := none, chain := none }

/-- The compiler drops exactly the pending values on a return. -/
def returns (x : Heights) : Bool := x.temps == x.here

end Heights

mutual

/-- Every jump out of the expression, and out of the functions in it, finds the stack as it should be, and no
list of operands is longer than a byte can count. -/
def balanced (x : Heights) : Expr → Bool
  | .ident _ | .unit | .null | .bool _ | .int _ | .float _ | .str _ => true
  | .anonFn _ _ body => balanced {} body
  | .object fs => balancedFields (x.over 2) fs
  | .list es => decide (es.length < 256) && balancedItems x es
  | .assign op (.ident _) rhs => balanced (x.over (if op = .assign then 0 else 1)) rhs
  | .assign op (.field e _) rhs => balanced x e && balanced (x.over (if op = .assign then 1 else 2)) rhs
  | .assign op (.index e i) rhs =>
    balanced x e && balanced (x.over 1) i && balanced (x.over (if op = .assign then 2 else 3)) rhs
  | .assign _ _ _ => true
  | .unary _ e => balanced x e
  | .binary op a b => match op with
    | .logicalAnd | .logicalOr | .coalesce => balanced x a && balanced x b
    | .pipeline => balanced x b && balanced (x.over 1) a
    | _ => balanced x a && balanced (x.over 1) b
  | .is e _ => balanced x e
  | .varDecl _ _ e _ => balanced x e
  | .fnDecl _ _ _ body => balanced {} body
  | .opDecl _ _ _ body => balanced {} body
  | .classDecl _ base items => balancedOpt x.inner base && balancedFns items
  | .importDecl .. => true
  | .exportDecl e => balanced (x.over 1) e
  | .ifExpr a b e => balanced x a && balanced x b && balancedOpt x e
  | .loop body => balanced x.looping body
  | .whileLoop a body => balanced x.looping a && balanced x.looping body
  | .forLoop _ source body => match source with
    | .binary .rangeInclusive a b => balanced x b && balanced (x.over 1) a && balanced (x.iterating 1) body
    | .binary .rangeExclusive a b => balanced x b && balanced (x.over 1) a && balanced (x.iterating 1) body
    | source => balanced x source && balanced (x.iterating 2) body
  | .break_ => x.brk == some x.here
  | .continue_ => x.cont == some x.here
  | .block es t => balancedAll x.inner es && balancedOpt x.inner t
  | .return_ e => x.returns && balancedOpt x e
  | .nullProp e => x.enter.chain == some x.here && balanced x.enter e
  | .errProp e => x.returns && balanced x.enter e
  | .field e _ => balanced x.enter e
  | .superAccess .. => true
  | .call e es => decide (es.length < 256) && balanced x.enter e && balancedArgs (x.arg 1) es
  | .superCall es => decide (es.length < 256) && balancedArgs (x.arg 1) es
  | .index e i => balanced x.enter e && balanced (x.arg 1) i

def balancedOpt (x : Heights) : Option Expr → Bool
  | none => true
  | some e => balanced x e

def balancedAll (x : Heights) : List Expr → Bool
  | [] => true
  | e :: es => balanced x e && balancedAll x es

def balancedItems (x : Heights) : List Expr → Bool
  | [] => true
  | e :: es => balanced x e && balancedItems (x.over 1) es

def balancedArgs (x : Heights) : List Expr → Bool
  | [] => true
  | e :: es => balanced x e && balancedArgs (x.arg 1) es

def balancedFields (x : Heights) : List (String × Expr) → Bool
  | [] => true
  | (_, e) :: fs => balanced x e && balancedFields x fs

def balancedFns : List Expr → Bool
  | [] => true
  | .fnDecl _ _ _ body :: rest => balanced {} body && balancedFns rest
  | .opDecl _ _ _ body :: rest => balanced {} body && balancedFns rest
  | _ :: rest => balancedFns rest

end

/-! ## Code that follows the discipline, with all functions inside -/

/-- `Typed`, and the functions in the code are good as soon as they are within the limits of the encoding. -/
structure TF (N : Nat) (K : Targets) (l p : Nat) (c : Code) (q : Nat) : Prop where
  typed : Typed N K l p c q
  fns : ∀ b, c.HasFn b → Fits b → GoodCode b

namespace TF
variable {N : Nat} {K : Targets} {l p q r : Nat}

theorem nop : TF N K l p .nop p := ⟨.nop, fun _ h => h.elim⟩

theorem instr {i : Instr} {k r : Nat} (he : i.effect = some (k, r)) (hl : l + k ≤ p) (hq : q = p - k + r)
    (hc : i.CapturesBelow N) (hf : ∀ b, i.HasFn b → Fits b → GoodCode b) : TF N K l p (.instr i) q :=
  hq ▸ ⟨.instr he hl hc, hf⟩

theorem op {o : Opcode} {k r : Nat} (he : Instr.effect (.op o) = some (k, r)) (hl : l + k ≤ p) (hq : q = p - k + r) :
    TF N K l p (.op o) q := instr he hl hq trivial (fun _ h => h.elim)

theorem num {o : Opcode} {n k r : Nat} (he : Instr.effect (.num o n) = some (k, r)) (hl : l + k ≤ p)
    (hq : q = p - k + r) : TF N K l p (.num o n) q := instr he hl hq trivial (fun _ h => h.elim)

theorem sym {o : Opcode} {x : String} {k r : Nat} (he : Instr.effect (.sym o x) = some (k, r)) (hl : l + k ≤ p)
    (hq : q = p - k + r) : TF N K l p (.sym o x) q := instr he hl hq trivial (fun _ h => h.elim)

theorem seq {a b : Code} (h1 : TF N K l p a q) (h2 : TF N K l q b r) : TF N K l p (.seq a b) r :=
  ⟨.seq h1.typed h2.typed, fun b h => h.elim (h1.fns b) (h2.fns b)⟩

theorem cons (q : Nat) {a : Code} {cs : List Code} (h1 : TF N K l p a q) (h2 : TF N K l q (.block cs) r) :
    TF N K l p (.block (a :: cs)) r := seq h1 h2

theorem nil : TF N K l p (.block []) p := nop

theorem skipIf {b : Bool} {c : Code} (hl : l ≤ p) (h : TF N K l p c p) : TF N K l (p + 1) (.skipIf b c) p :=
  ⟨.skipIf hl h.typed, h.fns⟩

theorem branch {t e : Code} (hl : l ≤ p) (h1 : TF N K l p t q) (h2 : TF N K l p e q) :
    TF N K l (p + 1) (.branch t e) q := ⟨.branch hl h1.typed h2.typed, fun b h => h.elim (h1.fns b) (h2.fns b)⟩

theorem loop {c : Code} (h : TF N { K with brk := some q, cont := some p } l p c p) : TF N K l p (.loop c) q :=
  ⟨.loop h.typed, h.fns⟩

theorem breakIf {b : Bool} (hl : l ≤ p) (h : K.brk = some p) : TF N K l (p + 1) (.breakIf b) p :=
  ⟨.breakIf hl h, fun _ h => h.elim⟩

theorem brk (h : K.brk = some p) : TF N K l p .brk q := ⟨.brk h, fun _ h => h.elim⟩

theorem cont (h : K.cont = some p) : TF N K l p .cont q := ⟨.cont h, fun _ h => h.elim⟩

theorem chain {c : Code} (h : TF N { K with exit := some q } l p c q) : TF N K l p (.chain c) q :=
  ⟨.chain h.typed, h.fns⟩

theorem exitIf {b : Bool} (hl : l ≤ p) (h : K.exit = some p) : TF N K l (p + 1) (.exitIf b) p :=
  ⟨.exitIf hl h, fun _ h => h.elim⟩

theorem ret : TF N K l 1 (.op .return_) q := ⟨.ret, fun _ h => h.elim⟩

theorem leave {c : Code} (h : TF N K 0 p c r) (hc : c.Leaves) : TF N K l p c q := ⟨.leave h.typed hc, h.fns⟩

theorem retTyped {b : Bool} (hl : l ≤ 1) : TF N K l 2 (.op (returnCheck b)) q := ⟨.retTyped hl, fun _ h => h.elim⟩

end TF

/-- More targets do no harm. -/
theorem Typed.targets {N : Nat} {K K' : Targets} {l p q : Nat} {c : Code} (h : Typed N K l p c q)
    (hb : ∀ n, K.brk = some n → K'.brk = some n) (hc : ∀ n, K.cont = some n → K'.cont = some n)
    (hx : ∀ n, K.exit = some n → K'.exit = some n) : Typed N K' l p c q := by
  induction h generalizing K' with
  | nop => exact .nop
  | instr he hl hcap => exact .instr he hl hcap
  | ret => exact .ret
  | retTyped hl => exact .retTyped hl
  | seq _ _ ih1 ih2 => exact .seq (ih1 hb hc hx) (ih2 hb hc hx)
  | skipIf hl _ ih => exact .skipIf hl (ih hb hc hx)
  | branch hl _ _ ih1 ih2 => exact .branch hl (ih1 hb hc hx) (ih2 hb hc hx)
  | loop _ ih => exact .loop (ih (fun _ h => h) (fun _ h => h) hx)
  | breakIf hl h => exact .breakIf hl (hb _ h)
  | brk h => exact .brk (hb _ h)
  | cont h => exact .cont (hc _ h)
  | chain _ ih => exact .chain (ih hb hc (fun _ h => h))
  | exitIf hl h => exact .exitIf hl (hx _ h)
  | leave _ hs ih => exact .leave (ih hb hc hx) hs

/-- The targets of a position. -/
def Heights.targets (x : Heights) : Targets :=
  { brk := x.brk, cont := x.cont, exit := x.chain.map (· + 1) }

/-- Code that needs no chain can be put into one. -/
theorem TF.inner {N : Nat} {x : Heights} {l p q : Nat} {c : Code} (h : TF N x.inner.targets l p c q) :
    TF N x.targets l p c q :=
  ⟨h.typed.targets (fun _ h => h) (fun _ h => h) (fun _ h => by cases h), h.fns⟩

/-! ## Pieces -/

section
variable {N : Nat} {K : Targets} {l p : Nat}

theorem IdentGen.tf {g g' : Env} {x : String} {i : Instr} (h : IdentGen g x i g') (hl : l ≤ p) :
    TF N K l p (.instr i) (p + 1) := by
  cases h with
  | «local» => exact .num rfl (by omega) (by omega)
  | captured => exact .num rfl (by omega) (by omega)
  | global => exact .sym rfl (by omega) (by omega)

theorem TypeGen.tf {g g' : Env} {slot : Nat} {t : Option TypeAnn} {c : Code} (h : TypeGen g slot t c g') (hl : l ≤ p) :
    TF N K l p c p := by
  cases h with
  | none => exact .nop
  | @some _ _ t i h =>
    refine .seq (h.tf hl) ?_
    unfold localCheck
    cases t.isNullable
    · exact .num rfl (by omega) (by omega)
    · exact .num rfl (by omega) (by omega)

theorem ReturnGen.tf {g g' : Env} {c : Code} (h : ReturnGen g c g') (q : Nat) : TF N K 0 1 c q := by
  cases h with
  | plain => exact .ret
  | typed _ _ h => exact .seq (h.tf (by omega)) (.retTyped (by omega))

theorem ParamsGen.tf {g g' : Env} {args : List FnArg} {c : Code} (h : ParamsGen g args c g') (hl : l ≤ p) :
    TF N K l p c p := by
  induction h with
  | nil => exact .nop
  | cons _ ht _ ih => exact .seq (ht.tf hl) ih

theorem ArgsGen.tf {g g' : Env} {k : FnKind} {args : List FnArg} {c : Code} (h : ArgsGen g k args c g') (hl : l ≤ p) :
    TF N K l p c p := by
  cases h with
  | noReceiver _ _ hp => exact hp.tf hl
  | receiver _ hp => exact hp.tf hl

theorem FnEndGen.tf {g g' : Env} {k : FnKind} {c : Code} (h : FnEndGen g k c g') : TF N K 0 1 c 1 := by
  cases h with
  | constructor =>
    exact .cons 0 (.op rfl (by omega) (by omega)) (.cons 1 (.num rfl (by omega) (by omega)) (.cons 1 .ret .nil))
  | other _ h => exact h.tf 1

theorem closeCode_tf (vs : List ScopeVar) (hl : l ≤ p) : TF N K l p (closeCode vs) p := by
  induction vs with
  | nil => exact .nop
  | cons v vs ih =>
    refine .seq ih ?_
    split
    · exact .num rfl (by omega) (by omega)
    · exact .nop

theorem ReturnGen.leaves {g g' : Env} {c : Code} (h : ReturnGen g c g') : c.Leaves := by
  cases h with
  | plain => exact .ret
  | typed _ _ h => exact .right trivial .retTyped

theorem dropCode_straight (n : Nat) : (dropCode n).Straight := by
  induction n with
  | zero => trivial
  | succ n ih => exact ⟨trivial, trivial, ih⟩

theorem dropCode_tf (n : Nat) : TF N K 0 (n + 1) (dropCode n) 1 := by
  induction n with
  | zero => exact .nop
  | succ n ih =>
    exact .seq (q := n + 2) (.op rfl (by omega) (by omega)) (.seq (q := n + 1) (.op rfl (by omega) (by omega)) ih)

theorem fieldLocals_tf (ls : List (String × Nat)) (hl : l ≤ p) : TF N K l (p + 1) (fieldLocalsCode ls) (p + 1) := by
  induction ls with
  | nil => exact .nop
  | cons x ls ih =>
    exact .cons (p + 2) (.num rfl (by omega) (by omega)) (.cons (p + 2) (.sym rfl (by omega) (by omega))
      (.cons (p + 2) (.num rfl (by omega) (by omega)) (.cons (p + 1) (.op rfl (by omega) (by omega)) (.cons _ ih .nil))))

theorem storeMember_tf (k : FnKind) (slot : Nat) (name : String) (hl : l ≤ p) :
    TF N K l (p + 2) (storeMember k slot name) (p + 1) := by
  unfold storeMember
  split
  · exact .seq (q := p) (.sym rfl (by omega) (by omega)) (.num rfl (by omega) (by omega))
  · exact .seq (q := p) (.sym rfl (by omega) (by omega)) (.num rfl (by omega) (by omega))
  · exact .cons (p + 1) (.sym rfl (by omega) (by omega)) (.cons p (.op rfl (by omega) (by omega))
      (.cons (p + 1) (.num rfl (by omega) (by omega)) .nil))

theorem intCode_tf (i : Int) (hl : l ≤ p) : TF N K l p (intCode i) (p + 1) := by
  unfold intCode
  split
  · exact .op rfl (by omega) (by omega)
  · split
    · exact .op rfl (by omega) (by omega)
    · exact .instr rfl (by omega) (by omega) trivial (fun _ h => h.elim)

theorem FloatCode.tf {f : Float} {c : Code} (h : FloatCode f c) (hl : l ≤ p) : TF N K l p c (p + 1) := by
  cases h with
  | zero => exact .op rfl (by omega) (by omega)
  | one => exact .op rfl (by omega) (by omega)
  | other => exact .instr rfl (by omega) (by omega) trivial (fun _ h => h.elim)

/-- The functions of laid out code are constants of the bytecode. -/
theorem Layout.fn_mem {bc : Bytecode} {c : Code} {a b tb tc te : Nat} (h : Layout bc a b tb tc te c) {f : Bytecode}
    (hf : c.HasFn f) : ∃ n i, Const.fn f n i ∈ bc.constants := by
  induction c generalizing a b tb tc te with
  | instr i =>
    cases i with
    | op => exact hf.elim
    | byte => exact hf.elim
    | const o k =>
      cases k with
      | fn code n id =>
        obtain ⟨_, _, _, k, _, hk⟩ := h
        have hf : code = f := hf
        subst hf
        exact ⟨n, id, List.mem_of_getElem? hk⟩
      | _ => exact hf.elim
    | closure code n id cap =>
      obtain ⟨_, _, _, ⟨k, _, hk⟩, _⟩ := h
      have hf : code = f := hf
      subst hf
      exact ⟨n, id, List.mem_of_getElem? hk⟩
    | fieldToLocal => exact hf.elim
  | seq x y ihx ihy =>
    obtain ⟨r, h1, h2⟩ := h
    exact hf.elim (ihx h1) (ihy h2)
  | skipIf _ c ih => exact ih h.2 hf
  | branch x y ihx ihy =>
    obtain ⟨r, _, h1, _, h2⟩ := h
    exact hf.elim (ihx h1) (ihy h2)
  | loop c ih =>
    obtain ⟨r, h1, _⟩ := h
    exact ih h1 hf
  | chain c ih => exact ih h hf
  | _ => exact hf.elim

theorem fnInstr_tf {fn : Ctx} {g : Env} {c : Code} {bc : Bytecode} {name : String} {id : Nat} (hc : FnCode fn c bc)
    (ht : TF fn.scopes.slotCount {} 0 0 c 1) (inv : StackInv (fn :: g)) (hN : g.slotCount ≤ N) (hl : l ≤ p) :
    TF N K l p (.instr (fnInstr bc name id fn.upvalues)) (p + 1) := by
  have good : Fits bc → GoodCode bc := by
    intro hf
    refine .mk (hc.layout hf) (hc.slots ▸ ht.typed) (fun b hb => ht.fns b hb ?_)
    obtain ⟨n, i, hm⟩ := (hc.layout hf).fn_mem hb
    cases hf with
    | mk _ _ _ fns => exact fns b n i hm
  unfold fnInstr
  split
  · exact .instr rfl (by omega) (by omega) trivial (fun b h => by cases h; exact good)
  · exact .instr rfl (by omega) (by omega)
      ⟨hc.captured, fun d hd h => Nat.lt_of_lt_of_le (captured_slot_lt inv hd h) hN⟩ (fun b h => by cases h; exact good)

end

/-! ## The main theorem -/

/-- What the check says about a piece of syntax. -/
def Node.balanced (x : Heights) : Node → Bool
  | .expr e => Dice.balanced x e
  | .link e => Dice.balanced x e
  | .seq es t => balancedAll x es && balancedOpt x t
  | .els t => balancedOpt x t
  | .items es => balancedItems x es
  | .args es => balancedArgs (x.arg 1) es
  | .fields fs => balancedFields (x.over 2) fs
  | .base b => balancedOpt x b
  | .cls _ its _ => balancedFns its
  | .block _ es t => balancedAll x.inner es && balancedOpt x.inner t
  | .fnBody _ _ es t => x.here == 0 && x.low == 0 && (balancedAll x.inner es && balancedOpt x.inner t)

/-- What balanced code does. -/
def Node.TF (N : Nat) (x : Heights) (c : Code) : Node → Prop
  | .items es => Dice.TF N x.targets x.low x.here c (x.here + es.length)
  | .args es => Dice.TF N x.inner.targets x.low (x.here + 1) c (x.here + 1 + es.length)
  | .fields _ => Dice.TF N x.targets x.low (x.here + 1) c (x.here + 1)
  | .cls .. => Dice.TF N x.targets x.low (x.here + 1) c (x.here + 1)
  | .block .loop _ _ => Dice.TF N x.targets x.low x.here c x.here
  | .fnBody .. => Dice.TF N x.inner.targets 0 0 c 1
  | _ => Dice.TF N x.targets x.low x.here c (x.here + 1)

/-- The position fits the static environment. -/
structure Heights.Fits (x : Heights) (g : Env) : Prop where
  low : x.low ≤ x.here
  temps : g.temps = x.temps
  calls : x.chain = none ↔ g.callDepth = some 0

theorem Heights.enter_enter (x : Heights) : x.enter.enter = x.enter := by
  unfold Heights.enter
  cases h : x.chain with
  | none => rfl
  | some d => simp only [h]

theorem Heights.enter_here (x : Heights) : x.enter.here = x.here := by
  unfold Heights.enter
  cases h : x.chain <;> rfl

theorem balanced_enter {x : Heights} {e : Expr} (he : e.isLink = true) (h : balanced x e = true) :
    balanced x.enter e = true := by
  have e1 : x.enter.returns = x.returns := by unfold Heights.enter; cases x.chain <;> rfl
  have e2 : ∀ n, x.enter.arg n = x.arg n := by intro n; unfold Heights.enter; cases x.chain <;> rfl
  cases e <;> simp only [Expr.isLink, Bool.false_eq_true] at he <;>
    simp only [balanced, Heights.enter_enter, Heights.enter_here, e1, e2] at h ⊢ <;> exact h

/-- A position in an environment that the compiler can reach. -/
structure At (x : Heights) (g : Env) : Prop where
  fits : x.Fits g
  inv : StackInv g

namespace At
variable {x : Heights} {g g' : Env}

theorem of (h : At x g) (hs : g'.shape = g.shape) (hp : g'.pending = g.pending) (hr : SlotRel g g') : At x g' :=
  ⟨⟨h.fits.low, by rw [temps_pending, hp, ← temps_pending]; exact h.fits.temps,
    by rw [callDepth_shape, hs, ← callDepth_shape]; exact h.fits.calls⟩, (hr h.inv).1⟩

theorem gen {nd : Node} {c : Code} (h : At x g) (hg : Gen g nd c g') (hn : nd.grows = 0) : At x g' :=
  h.of hg.shape (by rw [hg.pending, hn, bumpHead_zero]) (hg.rel slotRel)

theorem over (h : At x g) (n : Nat) : At (x.over n) g :=
  ⟨⟨by have := h.fits.low; show x.low ≤ x.here + n; omega, h.fits.temps, h.fits.calls⟩, h.inv⟩

theorem push {k : ScopeKind} {e : Bool} (h : At x g) (hp : g.pushScope k e = some g') : At x.inner g' := by
  refine ⟨⟨h.fits.low, ?_, ?_⟩, ((slotRel.pushScope hp) h.inv).1⟩
  · rw [temps_pending, pushScope_pending hp, ← temps_pending]; exact h.fits.temps
  · match g, hp with
    | c :: rest, hp => cases hp; exact ⟨fun _ => rfl, fun _ => rfl⟩

theorem push_looping {k : ScopeKind} {e : Bool} (h : At x g) (hp : g.pushScope k e = some g') : At x.looping g' :=
  ⟨⟨h.fits.low, (h.push hp).fits.temps, (h.push hp).fits.calls⟩, (h.push hp).inv⟩

theorem push_iterating {k : ScopeKind} {e : Bool} (h : At x g) (hp : g.pushScope k e = some g') (n : Nat) :
    At (x.iterating n) g' :=
  ⟨⟨by have := h.fits.low; show x.low ≤ x.here + 1; omega, (h.push hp).fits.temps, (h.push hp).fits.calls⟩,
    (h.push hp).inv⟩

theorem addLocal {y : String} {st : VarState} {slot : Nat} (h : At x g) (hl : g.addLocal y st = some (slot, g')) : At x g' :=
  h.of (addLocal_shape hl) (addLocal_pending hl) (slotRel.addLocal hl)

theorem resolve {y : String} {i : Nat} (h : At x g) (hr : resolveUpvalue y g = some (i, g')) : At x g' :=
  h.of (resolve_shape hr) (resolve_pending hr) (slotRel.resolve hr)

theorem fn (h : At x g) (k : CompilerKind) : At {} (g.pushFn k) :=
  ⟨⟨Nat.le_refl _, rfl, ⟨fun _ => rfl, fun _ => rfl⟩⟩, List.Pairwise.nil, scopeInv_new _, by simp, h.inv⟩

/-- After a function. -/
theorem afterFn {k : CompilerKind} {fk : FnKind} {args : List FnArg} {es : List Expr} {t : Option Expr} {c : Code}
    {fn : Ctx} (h : At x g) (hg : Gen (g.pushFn k) (.fnBody fk args es t) c (fn :: g')) : At x g' := by
  refine h.of ?_ ?_ (slotRel.fn (hg.rel slotRel))
  · exact (List.cons.inj hg.shape).2
  · exact (List.cons.inj (hg.pending.trans (bumpHead_zero _))).2

theorem arg {g1 : Env} (h : At x g) (hs : g.setCallDepth 0 = some g1) :
    At (x.arg 1) (g1.setTemps (g1.temps + 1)) := by
  refine ⟨⟨by have := h.fits.low; show x.low ≤ x.here + 1; omega, ?_, ?_⟩,
    ((slotRel.setTemps _ _) ((slotRel.setCallDepth hs) h.inv).1).1⟩
  · rw [temps_pending, setTemps_bump, setCallDepth_pending hs]
    have := h.fits.temps
    match g, hs with
    | c :: rest, _ => exact congrArg (· + 1) this
  · rw [callDepth_shape, setTemps_shape, ← callDepth_shape, (setCallDepth_shape hs).2]
    exact ⟨fun _ => rfl, fun _ => rfl⟩

/-- After an argument. -/
theorem counted {g1 g2 g3 : Env} {nd : Node} {c : Code} {d : Nat} (h : At x g) (hd : g.callDepth = some d)
    (hs : g.setCallDepth 0 = some g1) (hg : Gen (g1.setTemps (g1.temps + 1)) nd c g2) (hn : nd.grows = 0)
    (hr : g2.setCallDepth d = some g3) : At { x with here := x.here + 1, temps := x.temps + 1 } g3 := by
  have ha := (h.arg hs).gen hg hn
  refine ⟨⟨by have := h.fits.low; show x.low ≤ x.here + 1; omega, ?_, ?_⟩, ((slotRel.setCallDepth hr) ha.inv).1⟩
  · rw [temps_pending, setCallDepth_pending hr, ← temps_pending]; exact ha.fits.temps
  · rw [(setCallDepth_shape hr).2]
    exact hd ▸ h.fits.calls

/-- Inside a chain. -/
theorem enter {g1 : Env} {d : Nat} (h : At x g) (hd : g.callDepth = some d) (hs : g.setCallDepth (d + 1) = some g1) :
    At x.enter g1 := by
  have e1 : x.enter.low = x.low := by unfold Heights.enter; cases x.chain <;> rfl
  have e2 : x.enter.temps = x.temps := by unfold Heights.enter; cases x.chain <;> rfl
  refine ⟨⟨by rw [e1, Heights.enter_here]; exact h.fits.low, ?_, ?_⟩, ((slotRel.setCallDepth hs) h.inv).1⟩
  · rw [e2, temps_pending, setCallDepth_pending hs, ← temps_pending]; exact h.fits.temps
  · rw [(setCallDepth_shape hs).2]
    unfold Heights.enter
    cases hc : x.chain with
    | none => simp
    | some c => simp [hc]

end At

theorem SlotRel.le {g g' : Env} {N : Nat} (h : SlotRel g g') (inv : StackInv g) (hN : g'.slotCount ≤ N) :
    g.slotCount ≤ N := Nat.le_trans (h inv).2.top hN

/-- More targets do no harm. -/
theorem TF.targets {N : Nat} {K K' : Targets} {l p q : Nat} {c : Code} (h : TF N K l p c q)
    (hb : ∀ n, K.brk = some n → K'.brk = some n) (hc : ∀ n, K.cont = some n → K'.cont = some n)
    (hx : ∀ n, K.exit = some n → K'.exit = some n) : TF N K' l p c q := ⟨h.typed.targets hb hc hx, h.fns⟩

theorem balanced_body {body : Expr} (h : balanced {} body = true) :
    balancedAll {} (bodyExprs body) = true ∧ balancedOpt {} (bodyTrailing body) = true := by
  cases body with
  | block es t => simp only [balanced, Bool.and_eq_true] at h; exact h
  | _ => exact ⟨rfl, h⟩

/-- A function value. -/
theorem fn_tf {g g' : Env} {k : CompilerKind} {fk : FnKind} {args : List FnArg} {body : Expr} {c : Code} {fn : Ctx}
    {bc : Bytecode} {name : String} {id : Nat} {x : Heights} {N : Nat} {K : Targets} {l p : Nat}
    (hb : Gen (g.pushFn k) (.fnBody fk args (bodyExprs body) (bodyTrailing body)) c (fn :: g')) (hc : FnCode fn c bc)
    (ih : ∀ (x : Heights) (N : Nat), At x (g.pushFn k) →
      Node.balanced x (.fnBody fk args (bodyExprs body) (bodyTrailing body)) = true →
      Env.slotCount (fn :: g') ≤ N → (∀ e, Node.fnBody fk args (bodyExprs body) (bodyTrailing body) = .link e → x.chain ≠ none) →
      Node.TF N x c (.fnBody fk args (bodyExprs body) (bodyTrailing body)))
    (hA : At x g) (hbal : balanced {} body = true) (hN : g'.slotCount ≤ N) (hl : l ≤ p) :
    TF N K l p (.instr (fnInstr bc name id fn.upvalues)) (p + 1) :=
  fnInstr_tf hc (ih {} _ (hA.fn k) (by simpa only [Node.balanced, Bool.and_eq_true] using ⟨⟨rfl, rfl⟩, balanced_body hbal⟩)
    (Nat.le_refl _) (fun _ h => by cases h)) (hb.rel slotRel (hA.fn k).inv).1 hN hl

theorem assignOp_effect {op : AssignOp} {o : Opcode} (h : AssignOp.opcode op = some o) :
    op ≠ .assign ∧ Instr.effect (.op o) = some (2, 1) := by
  cases op <;> cases h <;> exact ⟨nofun, rfl⟩

theorem binaryOp_effect {op : BinaryOp} {o : Opcode} (h : BinaryOp.opcode op = some o) :
    Instr.effect (.op o) = some (2, 1) := by
  cases op <;> cases h <;> rfl

theorem call_effect {n : Nat} (h : n < 256) : Instr.effect (.num .call n) = some (n + 1, 1) := by
  show some ((UInt8.ofNat n).toNat + 1, 1) = _
  rw [UInt8.toNat_ofNat_of_lt' (by simpa using h)]

theorem callSuper_effect {n : Nat} (h : n < 256) : Instr.effect (.num .callSuper n) = some (n + 2, 1) := by
  show some ((UInt8.ofNat n).toNat + 2, 1) = _
  rw [UInt8.toNat_ofNat_of_lt' (by simpa using h)]

theorem createArray_effect {n : Nat} (h : n < 256) : Instr.effect (.num .createArray n) = some (n, 1) := by
  show some ((UInt8.ofNat n).toNat, 1) = _
  rw [UInt8.toNat_ofNat_of_lt' (by simpa using h)]

/-- Balanced source generates code that follows the discipline. -/
theorem Gen.tf {g g' : Env} {nd : Node} {c : Code} (h : Gen g nd c g') :
    ∀ (x : Heights) (N : Nat), At x g → nd.balanced x = true → g'.slotCount ≤ N →
      (∀ e, nd = .link e → x.chain ≠ none) → nd.TF N x c := by
  have nl : ∀ {x : Heights} {e : Expr}, ∀ e', Node.expr e = .link e' → x.chain ≠ none := fun _ h => by cases h
  induction h with
  | @ident g g' y i h => intro x N hA hb hN _; exact h.tf hA.fits.low
  | @unit g => intro x N hA hb hN _; have := hA.fits.low; exact .op rfl (by omega) (by omega)
  | @null g => intro x N hA hb hN _; have := hA.fits.low; exact .op rfl (by omega) (by omega)
  | @bool g b =>
    intro x N hA hb hN _
    have := hA.fits.low
    cases b <;> exact .op rfl (by omega) (by omega)
  | @int g i => intro x N hA hb hN _; exact intCode_tf i hA.fits.low
  | @float g f c h => intro x N hA hb hN _; exact h.tf hA.fits.low
  | @str g s =>
    intro x N hA hb hN _
    have := hA.fits.low
    exact .instr rfl (by omega) (by omega) trivial (fun _ h => h.elim)
  | @anonFn g g' args ret body c fn bc name id hg hc ih =>
    intro x N hA hb hN _
    simp only [Node.balanced, balanced] at hb
    exact fn_tf hg hc ih hA hb hN hA.fits.low
  | @object g g' fs c h ih =>
    intro x N hA hb hN _
    simp only [Node.balanced, balanced] at hb
    have := hA.fits.low
    exact .seq (q := x.here + 1) (.op rfl (by omega) (by omega)) (ih x N hA hb hN (fun _ h => by cases h))
  | @list g g' es c h ih =>
    intro x N hA hb hN _
    simp only [Node.balanced, balanced, Bool.and_eq_true, decide_eq_true_eq] at hb
    have := hA.fits.low
    exact .seq (q := x.here + es.length) (ih x N hA hb.2 hN (fun _ h => by cases h))
      (.num (createArray_effect hb.1) (by omega) (by omega))
  | @assignLocal g g' y rhs c v hv hm h ih =>
    intro x N hA hb hN _
    simp only [Node.balanced, balanced] at hb
    have := hA.fits.low
    exact .seq (q := x.here + 1) (ih x N hA hb hN nl) (.num rfl (by omega) (by omega))
  | @updateLocal g g' op y rhs c v o hv hm ho h ih =>
    intro x N hA hb hN _
    obtain ⟨hop, hef⟩ := assignOp_effect ho
    simp only [Node.balanced, balanced, if_neg hop] at hb
    have := hA.fits.low
    exact .cons (x.here + 1) (.num rfl (by omega) (by omega)) (.cons (x.here + 2) (ih _ N (hA.over 1) hb hN nl)
      (.cons (x.here + 1) (.op hef (by omega) (by omega)) (.cons (x.here + 1) (.num rfl (by omega) (by omega)) .nil)))
  | @assignCaptured g g1 g' y rhs c i d hv hr hd hm h ih =>
    intro x N hA hb hN _
    simp only [Node.balanced, balanced] at hb
    have := hA.fits.low
    exact .seq (q := x.here + 1) (ih x N (hA.resolve hr) hb hN nl) (.num rfl (by omega) (by omega))
  | @updateCaptured g g1 g' op y rhs c i d o hv hr hd hm ho h ih =>
    intro x N hA hb hN _
    obtain ⟨hop, hef⟩ := assignOp_effect ho
    simp only [Node.balanced, balanced, if_neg hop] at hb
    have := hA.fits.low
    exact .cons (x.here + 1) (.num rfl (by omega) (by omega))
      (.cons (x.here + 2) (ih _ N ((hA.resolve hr).over 1) hb hN nl)
        (.cons (x.here + 1) (.op hef (by omega) (by omega)) (.cons (x.here + 1) (.num rfl (by omega) (by omega)) .nil)))
  | @assignField g g1 g' e f rhs c1 c2 h1 h2 ih1 ih2 =>
    intro x N hA hb hN _
    simp only [Node.balanced, balanced, Bool.and_eq_true, if_true] at hb
    have := hA.fits.low
    have hA1 := hA.gen h1 rfl
    exact .cons (x.here + 1) (ih1 x N hA hb.1 ((h2.rel slotRel).le hA1.inv hN) nl)
      (.cons (x.here + 2) (ih2 _ N (hA1.over 1) hb.2 hN nl) (.cons (x.here + 1) (.sym rfl (by omega) (by omega)) .nil))
  | @updateField g g1 g' op e f rhs c1 c2 o ho h1 h2 ih1 ih2 =>
    intro x N hA hb hN _
    obtain ⟨hop, hef⟩ := assignOp_effect ho
    simp only [Node.balanced, balanced, Bool.and_eq_true, if_neg hop] at hb
    have := hA.fits.low
    have hA1 := hA.gen h1 rfl
    exact .cons (x.here + 1) (ih1 x N hA hb.1 ((h2.rel slotRel).le hA1.inv hN) nl)
      (.cons (x.here + 2) (.num rfl (by omega) (by omega)) (.cons (x.here + 2) (.sym rfl (by omega) (by omega))
        (.cons (x.here + 3) (ih2 _ N (hA1.over 2) hb.2 hN nl) (.cons (x.here + 2) (.op hef (by omega) (by omega))
          (.cons (x.here + 1) (.sym rfl (by omega) (by omega)) .nil)))))
  | @assignIndex g g1 g2 g' e i rhs c1 c2 c3 h1 h2 h3 ih1 ih2 ih3 =>
    intro x N hA hb hN _
    simp only [Node.balanced, balanced, Bool.and_eq_true, if_true] at hb
    have := hA.fits.low
    have hA1 := hA.gen h1 rfl
    have hA2 := hA1.gen h2 rfl
    have hN2 := (h3.rel slotRel).le hA2.inv hN
    exact .cons (x.here + 1) (ih1 x N hA hb.1.1 ((h2.rel slotRel).le hA1.inv hN2) nl)
      (.cons (x.here + 2) (ih2 _ N (hA1.over 1) hb.1.2 hN2 nl) (.cons (x.here + 3) (ih3 _ N (hA2.over 2) hb.2 hN nl)
        (.cons (x.here + 1) (.op rfl (by omega) (by omega)) .nil)))
  | @updateIndex g g1 g2 g' op e i rhs c1 c2 c3 o ho h1 h2 h3 ih1 ih2 ih3 =>
    intro x N hA hb hN _
    obtain ⟨hop, hef⟩ := assignOp_effect ho
    simp only [Node.balanced, balanced, Bool.and_eq_true, if_neg hop] at hb
    have := hA.fits.low
    have hA1 := hA.gen h1 rfl
    have hA2 := hA1.gen h2 rfl
    have hN2 := (h3.rel slotRel).le hA2.inv hN
    exact .cons (x.here + 1) (ih1 x N hA hb.1.1 ((h2.rel slotRel).le hA1.inv hN2) nl)
      (.cons (x.here + 2) (ih2 _ N (hA1.over 1) hb.1.2 hN2 nl)
        (.cons (x.here + 3) (.num rfl (by omega) (by omega)) (.cons (x.here + 4) (.num rfl (by omega) (by omega))
          (.cons (x.here + 3) (.op rfl (by omega) (by omega)) (.cons (x.here + 4) (ih3 _ N (hA2.over 3) hb.2 hN nl)
            (.cons (x.here + 3) (.op hef (by omega) (by omega))
              (.cons (x.here + 1) (.op rfl (by omega) (by omega)) .nil)))))))
  | @unary g g' op e c h ih =>
    intro x N hA hb hN _
    simp only [Node.balanced, balanced] at hb
    have := hA.fits.low
    refine .seq (q := x.here + 1) (ih x N hA hb hN nl) ?_
    cases op <;> exact .op rfl (by omega) (by omega)
  | @and g g1 g' a b c1 c2 h1 h2 ih1 ih2 =>
    intro x N hA hb hN _
    simp only [Node.balanced, balanced, Bool.and_eq_true] at hb
    have := hA.fits.low
    have hA1 := hA.gen h1 rfl
    exact .cons (x.here + 1) (ih1 x N hA hb.1 ((h2.rel slotRel).le hA1.inv hN) nl)
      (.cons (x.here + 2) (.num rfl (by omega) (by omega)) (.cons (x.here + 2) (.op rfl (by omega) (by omega))
        (.cons (x.here + 1) (.skipIf (by omega) (.cons x.here (.op rfl (by omega) (by omega))
          (.cons (x.here + 1) (ih2 x N hA1 hb.2 hN nl) (.cons (x.here + 1) (.op rfl (by omega) (by omega)) .nil)))) .nil)))
  | @or g g1 g' a b c1 c2 h1 h2 ih1 ih2 =>
    intro x N hA hb hN _
    simp only [Node.balanced, balanced, Bool.and_eq_true] at hb
    have := hA.fits.low
    have hA1 := hA.gen h1 rfl
    exact .cons (x.here + 1) (ih1 x N hA hb.1 ((h2.rel slotRel).le hA1.inv hN) nl)
      (.cons (x.here + 2) (.num rfl (by omega) (by omega)) (.cons (x.here + 2) (.op rfl (by omega) (by omega))
        (.cons (x.here + 1) (.skipIf (by omega) (.cons x.here (.op rfl (by omega) (by omega))
          (.cons (x.here + 1) (ih2 x N hA1 hb.2 hN nl) (.cons (x.here + 1) (.op rfl (by omega) (by omega)) .nil)))) .nil)))
  | @pipeline g g1 g' a b c1 c2 h1 h2 ih1 ih2 =>
    intro x N hA hb hN _
    simp only [Node.balanced, balanced, Bool.and_eq_true] at hb
    have := hA.fits.low
    have hA1 := hA.gen h1 rfl
    exact .cons (x.here + 1) (ih1 x N hA hb.1 ((h2.rel slotRel).le hA1.inv hN) nl)
      (.cons (x.here + 2) (ih2 _ N (hA1.over 1) hb.2 hN nl)
        (.cons (x.here + 1) (.num (call_effect (by omega)) (by omega) (by omega)) .nil))
  | @coalesce g g1 g' a b c1 c2 h1 h2 ih1 ih2 =>
    intro x N hA hb hN _
    simp only [Node.balanced, balanced, Bool.and_eq_true] at hb
    have := hA.fits.low
    have hA1 := hA.gen h1 rfl
    exact .cons (x.here + 1) (ih1 x N hA hb.1 ((h2.rel slotRel).le hA1.inv hN) nl)
      (.cons (x.here + 2) (.num rfl (by omega) (by omega)) (.cons (x.here + 3) (.op rfl (by omega) (by omega))
        (.cons (x.here + 2) (.op rfl (by omega) (by omega))
          (.cons (x.here + 1) (.skipIf (by omega) (.cons x.here (.op rfl (by omega) (by omega))
            (.cons (x.here + 1) (ih2 x N hA1 hb.2 hN nl) .nil))) .nil))))
  | @binary g g1 g' op a b c1 c2 o ho h1 h2 ih1 ih2 =>
    intro x N hA hb hN _
    have hb : balanced x a = true ∧ balanced (x.over 1) b = true := by
      cases op <;> cases ho <;> simpa only [Node.balanced, balanced, Bool.and_eq_true] using hb
    have := hA.fits.low
    have hA1 := hA.gen h1 rfl
    exact .cons (x.here + 1) (ih1 x N hA hb.1 ((h2.rel slotRel).le hA1.inv hN) nl)
      (.cons (x.here + 2) (ih2 _ N (hA1.over 1) hb.2 hN nl)
        (.cons (x.here + 1) (.op (binaryOp_effect ho) (by omega) (by omega)) .nil))
  | @«is» g g1 g' e t c i hn h ht ih =>
    intro x N hA hb hN _
    simp only [Node.balanced, balanced] at hb
    have := hA.fits.low
    have hA1 := hA.gen h rfl
    exact .cons (x.here + 1) (ih x N hA hb ((ht.rel slotRel).le hA1.inv hN) nl)
      (.cons (x.here + 2) (ht.tf (by omega)) (.cons (x.here + 1) (.op rfl (by omega) (by omega)) .nil))
  | @isNullable g g1 g2 g' e t c1 c2 i hn h1 h2 ht ih1 ih2 =>
    intro x N hA hb hN _
    simp only [Node.balanced, balanced] at hb
    have := hA.fits.low
    have hA1 := hA.gen h1 rfl
    have hA2 := hA1.gen h2 rfl
    have hN2 := (ht.rel slotRel).le hA2.inv hN
    exact .cons (x.here + 1) (ih1 x N hA hb ((h2.rel slotRel).le hA1.inv hN2) nl)
      (.cons (x.here + 2) (.op rfl (by omega) (by omega)) (.cons (x.here + 1) (.op rfl (by omega) (by omega))
        (.cons (x.here + 2) (.num rfl (by omega) (by omega))
          (.cons (x.here + 1) (.skipIf (by omega) (.cons x.here (.op rfl (by omega) (by omega))
            (.cons (x.here + 1) (ih2 x N hA1 hb hN2 nl) (.cons (x.here + 2) (ht.tf (by omega))
              (.cons (x.here + 1) (.op rfl (by omega) (by omega)) .nil))))) .nil))))
  | @varDecl g g1 g2 g' y m e t c slot ct h hl ht ih =>
    intro x N hA hb hN _
    simp only [Node.balanced, balanced] at hb
    have := hA.fits.low
    have hA1 := hA.gen h rfl
    exact .cons (x.here + 1) (ih x N hA hb ((slotRel.trans (slotRel.addLocal hl) (ht.rel slotRel)).le hA1.inv hN) nl)
      (.cons (x.here + 1) (.num rfl (by omega) (by omega)) (.cons (x.here + 1) (ht.tf (by omega)) .nil))
  | @varDecls g g1 g' xs m e t c locals h hl ih =>
    intro x N hA hb hN _
    simp only [Node.balanced, balanced] at hb
    exact .seq (ih x N hA hb ((slotRel.addLocals hl).le (hA.gen h rfl).inv hN) nl) (fieldLocals_tf _ hA.fits.low)
  | @fnDecl g g' name args ret body c fn bc id v hu hg hc hv hs ih =>
    intro x N hA hb hN _
    simp only [Node.balanced, balanced] at hb
    have := hA.fits.low
    have inv := (hg.rel slotRel (hA.fn _).inv).1
    exact .seq (fn_tf hg hc ih hA hb ((slotRel.setState _ _ _).le inv.2.2.2 hN) hA.fits.low)
      (.num rfl (by omega) (by omega))
  | @opDecl g g' op args ret body c fn bc id hu hg hc ih =>
    intro x N hA hb hN _
    simp only [Node.balanced, balanced] at hb
    have := hA.fits.low
    exact .cons (x.here + 1) (fn_tf hg hc ih hA hb hN hA.fits.low)
      (.cons x.here (.sym rfl (by omega) (by omega)) (.cons (x.here + 1) (.op rfl (by omega) (by omega)) .nil))
  | @classDecl g g1 g2 g3 g4 g5 g' name base its cb superSlot v ci vars h0 hbs hsup hv hs hg hi hp ihb ihi =>
    intro x N hA hb hN _
    simp only [Node.balanced, balanced, Bool.and_eq_true] at hb
    have := hA.fits.low
    have hA1 := hA.push h0
    have hA2 := hA1.gen hbs rfl
    have hA3 := hA2.addLocal hsup
    have r34 : SlotRel g3 g4 := by
      rw [hg]
      split
      · exact slotRel.setState _ _ _
      · exact slotRel.refl _
    have hA4 : At x.inner g4 := by
      rw [hg]
      split
      · exact hA3.of (setState_shape _ _ _) (setState_pending _ _ _) (slotRel.setState _ _ _)
      · exact hA3
    have hA5 := hA4.gen hi rfl
    have hN5 := (slotRel.popScope hp).le hA5.inv hN
    have hN2 := (slotRel.trans (slotRel.addLocal hsup) (slotRel.trans r34 (hi.rel slotRel))).le hA2.inv hN5
    have t1 : Dice.TF N x.targets x.low x.here cb (x.here + 1) := (ihb _ N hA1 hb.1 hN2 (fun _ h => by cases h)).inner
    have t2 : Dice.TF N x.targets x.low (x.here + 1) ci (x.here + 1) :=
      (ihi _ N hA4 hb.2 hN5 (fun _ h => by cases h)).inner
    exact .cons (x.here + 1) t1
      (.cons (x.here + 1) (.num rfl (by omega) (by omega)) (.cons (x.here + 1) (.sym rfl (by omega) (by omega))
        (.cons (x.here + 1) (.num rfl (by omega) (by omega)) (.cons (x.here + 1) t2
          (.cons (x.here + 1) (closeCode_tf _ (by omega)) .nil)))))
  | @importItems g g' its path locals hl =>
    intro x N hA hb hN _
    have := hA.fits.low
    exact .seq (q := x.here + 1) (.sym rfl (by omega) (by omega)) (fieldLocals_tf _ (by omega))
  | @importModule g g1 g' m its path locals slot hl hm =>
    intro x N hA hb hN _
    have := hA.fits.low
    exact .cons (x.here + 1) (.sym rfl (by omega) (by omega)) (.cons (x.here + 1) (fieldLocals_tf _ (by omega))
      (.cons (x.here + 1) (.num rfl (by omega) (by omega)) .nil))
  | @exportDecl g g' e c d v n hk hd hd1 hv h hn ih =>
    intro x N hA hb hN _
    simp only [Node.balanced, balanced] at hb
    have := hA.fits.low
    exact .cons (x.here + 1) (.num rfl (by omega) (by omega)) (.cons (x.here + 2) (ih _ N (hA.over 1) hb hN nl)
      (.cons (x.here + 1) (.sym rfl (by omega) (by omega)) .nil))
  | @ifExpr g g1 g2 g' a b e c1 c2 c3 h1 h2 h3 ih1 ih2 ih3 =>
    intro x N hA hb hN _
    simp only [Node.balanced, balanced, Bool.and_eq_true] at hb
    have hA1 := hA.gen h1 rfl
    have hA2 := hA1.gen h2 rfl
    have hN2 := (h3.rel slotRel).le hA2.inv hN
    exact .seq (ih1 x N hA hb.1.1 ((h2.rel slotRel).le hA1.inv hN2) nl)
      (.branch hA.fits.low (ih2 x N hA1 hb.1.2 hN2 nl) (ih3 x N hA2 hb.2 hN (fun _ h => by cases h)))
  | @loop g g1 g2 g' es t c vars h0 h hp ih =>
    intro x N hA hb hN _
    simp only [Node.balanced, balanced, Bool.and_eq_true] at hb
    have := hA.fits.low
    have hA1 := hA.push_looping h0
    have hN2 := (slotRel.popScope hp).le (hA1.gen h rfl).inv hN
    have t : Dice.TF N x.looping.targets x.low x.here c x.here :=
      ih x.looping N hA1 (by simpa only [Node.balanced, Bool.and_eq_true] using hb) hN2 (fun _ h => by cases h)
    exact .seq (q := x.here) (.loop (t.targets (fun _ h => h) (fun _ h => h) (fun _ h => by cases h)))
      (.op rfl (by omega) (by omega))
  | @whileLoop g g1 g2 g3 g' a es t c1 c2 vars h0 h1 h2 hp ih1 ih2 =>
    intro x N hA hb hN _
    simp only [Node.balanced, balanced, Bool.and_eq_true] at hb
    have := hA.fits.low
    have hA1 := hA.push_looping h0
    have hA2 := hA1.gen h1 rfl
    have hN3 := (slotRel.popScope hp).le (hA2.gen h2 rfl).inv hN
    have t1 : Dice.TF N x.looping.targets x.low x.here c1 (x.here + 1) :=
      ih1 x.looping N hA1 hb.1 ((h2.rel slotRel).le hA2.inv hN3) nl
    have t2 : Dice.TF N x.looping.targets x.low x.here c2 x.here :=
      ih2 x.looping N hA2 (by simpa only [Node.balanced, Bool.and_eq_true] using hb.2) hN3 (fun _ h => by cases h)
    refine .seq (q := x.here) (.loop ?_) (.op rfl (by omega) (by omega))
    exact .cons (x.here + 1) (t1.targets (fun _ h => h) (fun _ h => h) (fun _ h => by cases h))
      (.cons x.here (.breakIf (by omega) rfl)
        (.cons x.here (t2.targets (fun _ h => h) (fun _ h => h) (fun _ h => by cases h)) .nil))
  | @rangeLoop g g1 g2 g3 g4 g5 g' y op a b body c1 c2 c3 slot vars hop h1 h2 h0 hl h3 hp ih1 ih2 ih3 =>
    intro x N hA hb hN _
    have hb : (balanced x b = true ∧ balanced (x.over 1) a = true) ∧ balanced (x.iterating 1) body = true := by
      rcases hop with rfl | rfl <;> simpa only [Node.balanced, balanced, Bool.and_eq_true] using hb
    have := hA.fits.low
    have hA1 := hA.gen h1 rfl
    have hA2 := hA1.gen h2 rfl
    have hA4 := (hA2.push_iterating h0 1).addLocal hl
    have hN5 := (slotRel.popScope hp).le (hA4.gen h3 rfl).inv hN
    have hN2 := (slotRel.trans (slotRel.pushScope h0) (slotRel.trans (slotRel.addLocal hl) (h3.rel slotRel))).le hA2.inv hN5
    have t : Dice.TF N (x.iterating 1).targets x.low (x.here + 1) c3 (x.here + 2) := ih3 _ N hA4 hb.2 hN5 nl
    refine .cons (x.here + 1) (ih1 x N hA hb.1.1 ((h2.rel slotRel).le hA1.inv hN2) nl)
      (.cons (x.here + 2) (ih2 _ N (hA1.over 1) hb.1.2 hN2 nl) (.cons (x.here + 1) (.loop ?_)
        (.cons x.here (.op rfl (by omega) (by omega)) (.cons (x.here + 1) (.op rfl (by omega) (by omega)) .nil))))
    refine .cons (x.here + 2) (.num rfl (by omega) (by omega)) (.cons (x.here + 3) (.num rfl (by omega) (by omega))
      (.cons (x.here + 2) ?_ (.cons (x.here + 1) (.breakIf (by omega) rfl)
        (.cons (x.here + 2) (t.targets (fun _ h => h) (fun _ h => by cases h) (fun _ h => by cases h))
          (.cons (x.here + 1) (.op rfl (by omega) (by omega)) (.cons (x.here + 2) (.num rfl (by omega) (by omega))
            (.cons (x.here + 3) (.op rfl (by omega) (by omega)) (.cons (x.here + 2) (.op rfl (by omega) (by omega))
              (.cons (x.here + 2) (closeCode_tf _ (by omega)) .nil)))))))))
    split
    · exact .op rfl (by omega) (by omega)
    · exact .op rfl (by omega) (by omega)
  | @forLoop g g1 g2 g3 g4 g' y source body c1 c2 slot vars hns h1 h0 hl h2 hp ih1 ih2 =>
    intro x N hA hb hN _
    have hb : balanced x source = true ∧ balanced (x.iterating 2) body = true := by
      simp only [Node.balanced] at hb
      unfold balanced at hb
      split at hb
      · exact absurd rfl (hns _ _).1
      · exact absurd rfl (hns _ _).2
      · simpa only [Bool.and_eq_true] using hb
    have := hA.fits.low
    have hA1 := hA.gen h1 rfl
    have hA3 := (hA1.push_iterating h0 2).addLocal hl
    have hN4 := (slotRel.popScope hp).le (hA3.gen h2 rfl).inv hN
    have hN1 := (slotRel.trans (slotRel.pushScope h0) (slotRel.trans (slotRel.addLocal hl) (h2.rel slotRel))).le hA1.inv hN4
    have t : Dice.TF N (x.iterating 2).targets x.low (x.here + 1) c2 (x.here + 2) := ih2 _ N hA3 hb.2 hN4 nl
    refine .cons (x.here + 1) (ih1 x N hA hb.1 hN1 nl) (.cons (x.here + 1) (.sym rfl (by omega) (by omega))
      (.cons (x.here + 1) (.num (call_effect (by omega)) (by omega) (by omega))
        (.cons (x.here + 1) (.sym rfl (by omega) (by omega)) (.cons (x.here + 2) (.loop ?_)
          (.cons (x.here + 1) (.op rfl (by omega) (by omega)) (.cons x.here (.op rfl (by omega) (by omega))
            (.cons (x.here + 1) (.op rfl (by omega) (by omega)) .nil)))))))
    exact .cons (x.here + 2) (.num rfl (by omega) (by omega))
      (.cons (x.here + 2) (.num (call_effect (by omega)) (by omega) (by omega))
        (.cons (x.here + 3) (.num rfl (by omega) (by omega)) (.cons (x.here + 3) (.sym rfl (by omega) (by omega))
          (.cons (x.here + 2) (.breakIf (by omega) rfl)
            (.cons (x.here + 2) (.instr rfl (by omega) (by omega) trivial (fun _ h => h.elim))
              (.cons (x.here + 1) (.op rfl (by omega) (by omega))
                (.cons (x.here + 2) (t.targets (fun _ h => h) (fun _ h => by cases h) (fun _ h => by cases h))
                  (.cons (x.here + 1) (.op rfl (by omega) (by omega))
                    (.cons (x.here + 1) (closeCode_tf _ (by omega)) .nil)))))))))
  | @break_ g h =>
    intro x N hA hb hN _
    simp only [Node.balanced, balanced, beq_iff_eq] at hb
    exact .brk hb
  | @continue_ g h =>
    intro x N hA hb hN _
    simp only [Node.balanced, balanced, beq_iff_eq] at hb
    exact .cont hb
  | @blockExpr g g' es t c h ih =>
    intro x N hA hb hN _
    exact ih x N hA (by simpa only [Node.balanced, balanced] using hb) hN (fun _ h => by cases h)
  | @returnValue g g1 g' e k c cr hk hf h hr ih =>
    intro x N hA hb hN _
    simp only [Node.balanced, balanced, Bool.and_eq_true, Heights.returns, beq_iff_eq] at hb
    obtain ⟨ht, hb⟩ := hb
    have := hA.fits.low
    have hA1 := hA.gen h rfl
    have t := ih x N hA hb ((hr.rel slotRel).le hA1.inv hN) nl
    show Dice.TF N x.targets x.low x.here _ _
    rw [hA1.fits.temps, ht]
    exact .cons (x.here + 1) t (.leave (.cons 1 (dropCode_tf _) (.cons 0 (hr.tf _) .nil))
      (.right (dropCode_straight _) (.left hr.leaves)))
  | @returnUnit g g' k cr hk hf hr =>
    intro x N hA hb hN _
    simp only [Node.balanced, balanced, Bool.and_eq_true, Heights.returns, beq_iff_eq] at hb
    obtain ⟨ht, hb⟩ := hb
    have := hA.fits.low
    show Dice.TF N x.targets x.low x.here _ _
    rw [hA.fits.temps, ht]
    exact .cons (x.here + 1) (.op rfl (by omega) (by omega)) (.leave (.cons 1 (dropCode_tf _) (.cons 0 (hr.tf _) .nil))
      (.right (dropCode_straight _) (.left hr.leaves)))
  | @returnSelf g g' cr v hk hv hr =>
    intro x N hA hb hN _
    simp only [Node.balanced, balanced, Bool.and_eq_true, Heights.returns, beq_iff_eq] at hb
    obtain ⟨ht, hb⟩ := hb
    have := hA.fits.low
    show Dice.TF N x.targets x.low x.here _ _
    rw [hA.fits.temps, ht]
    exact .cons (x.here + 1) (.num rfl (by omega) (by omega)) (.leave (.cons 1 (dropCode_tf _) (.cons 0 (hr.tf _) .nil))
      (.right (dropCode_straight _) (.left hr.leaves)))
  | @chain g g1 g2 g' e c d d' he hd h0 h hd' h1 ih =>
    intro x N hA hb hN _
    simp only [Node.balanced] at hb
    have hA1 := hA.enter hd h0
    have hN2 := (slotRel.setCallDepth h1).le (hA1.gen h (by cases e <;> first | rfl | cases he)).inv hN
    have ne : x.enter.chain ≠ none := by
      intro hx
      have := hA1.fits.calls.1 hx
      rw [(setCallDepth_shape h0).2] at this
      cases this
    have t := ih x.enter N hA1 (balanced_enter he hb) hN2 (fun _ _ => ne)
    have hdd : d' = d := by
      have := h.shape
      rw [callDepth_shape, this, ← callDepth_shape, (setCallDepth_shape h0).2] at hd'
      cases hd'
      rfl
    subst hdd
    have t : Dice.TF N x.enter.targets x.enter.low x.enter.here c (x.enter.here + 1) := t
    show Dice.TF N x.targets x.low x.here _ (x.here + 1)
    cases hx : x.chain with
    | none =>
      have hz : d' = 0 := by
        have := hA.fits.calls.1 hx
        rw [hd] at this
        cases this
        rfl
      rw [if_pos hz]
      have hx' : x.enter = { x with chain := some x.here } := by unfold Heights.enter; rw [hx]
      rw [hx'] at t
      exact .chain t
    | some y =>
      have hz : d' ≠ 0 := by
        intro hz
        subst hz
        have := hA.fits.calls.2 hd
        rw [hx] at this
        cases this
      rw [if_neg hz]
      have hx' : x.enter = x := by unfold Heights.enter; rw [hx]
      rwa [hx'] at t
  | @nullProp g g' e c h ih =>
    intro x N hA hb hN hc
    have hx : x.enter = x := by
      unfold Heights.enter
      cases hx : x.chain with
      | none => exact absurd hx (hc _ rfl)
      | some y => rfl
    simp only [Node.balanced, balanced, Bool.and_eq_true, beq_iff_eq, hx] at hb
    have := hA.fits.low
    exact .cons (x.here + 1) (ih x N hA hb.2 hN nl) (.cons (x.here + 2) (.num rfl (by omega) (by omega))
      (.cons (x.here + 3) (.op rfl (by omega) (by omega)) (.cons (x.here + 2) (.op rfl (by omega) (by omega))
        (.cons (x.here + 1) (.exitIf (by omega) (by simp [Heights.targets, hb.1])) .nil))))
  | @errProp g g1 g' e k c cr hk hf h hr ih =>
    intro x N hA hb hN hc
    have hx : x.enter = x := by
      unfold Heights.enter
      cases hx : x.chain with
      | none => exact absurd hx (hc _ rfl)
      | some y => rfl
    simp only [Node.balanced, balanced, Bool.and_eq_true, Heights.returns, beq_iff_eq, hx] at hb
    obtain ⟨ht, hb⟩ := hb
    have := hA.fits.low
    have hA1 := hA.gen h rfl
    have t := ih x N hA hb ((hr.rel slotRel).le hA1.inv hN) nl
    show Dice.TF N x.targets x.low x.here _ _
    rw [hA1.fits.temps, ht]
    exact .cons (x.here + 1) t (.cons (x.here + 2) (.num rfl (by omega) (by omega))
      (.cons (x.here + 2) (.sym rfl (by omega) (by omega)) (.cons (x.here + 1)
        (.skipIf (by omega) (.leave (r := 0) (.seq (dropCode_tf _) (hr.tf _)) (.right (dropCode_straight _) hr.leaves))) (.cons (x.here + 1) (.sym rfl (by omega) (by omega)) .nil))))
  | @field g g' e f c h ih =>
    intro x N hA hb hN hc
    have hx : x.enter = x := by
      unfold Heights.enter
      cases hx : x.chain with
      | none => exact absurd hx (hc _ rfl)
      | some y => rfl
    simp only [Node.balanced, balanced, hx] at hb
    have := hA.fits.low
    exact .seq (q := x.here + 1) (ih x N hA hb hN nl) (.sym rfl (by omega) (by omega))
  | @superAccess g g1 g' f cls i1 i2 k hk hm h1 h2 =>
    intro x N hA hb hN hc
    have := hA.fits.low
    exact .cons (x.here + 1) (h1.tf (by omega)) (.cons (x.here + 2) (h2.tf (by omega))
      (.cons (x.here + 1) (.sym rfl (by omega) (by omega)) .nil))
  | @call g g1 g2 g' e es c1 c2 h1 h2 hg ih1 ih2 =>
    intro x N hA hb hN hc
    have hx : x.enter = x := by
      unfold Heights.enter
      cases hx : x.chain with
      | none => exact absurd hx (hc _ rfl)
      | some y => rfl
    simp only [Node.balanced, balanced, Bool.and_eq_true, decide_eq_true_eq, hx] at hb
    subst hg
    have := hA.fits.low
    have hA1 := hA.gen h1 rfl
    have inv2 := (h2.rel slotRel hA1.inv).1
    have hN2 := (slotRel.setTemps _ _).le inv2 hN
    have t : Dice.TF N x.inner.targets x.low (x.here + 1) c2 (x.here + 1 + es.length) :=
      ih2 x N hA1 hb.2 hN2 (fun _ h => by cases h)
    exact .cons (x.here + 1) (ih1 x N hA hb.1.2 ((h2.rel slotRel).le hA1.inv hN2) nl)
      (.cons (x.here + 1 + es.length) t.inner (.cons (x.here + 1) (.num (call_effect hb.1.1) (by omega) (by omega)) .nil))
  | @superCall g g1 g' es v c i hv h hi ih =>
    intro x N hA hb hN hc
    simp only [Node.balanced, balanced, Bool.and_eq_true, decide_eq_true_eq] at hb
    have := hA.fits.low
    have inv1 := (h.rel slotRel hA.inv).1
    have hN1 := (slotRel.trans (slotRel.setTemps _ _) (hi.rel slotRel)).le inv1 hN
    have t : Dice.TF N x.inner.targets x.low (x.here + 1) c (x.here + 1 + es.length) :=
      ih x N hA hb.2 hN1 (fun _ h => by cases h)
    exact .cons (x.here + 1) (.num rfl (by omega) (by omega)) (.cons (x.here + 1 + es.length) t.inner
      (.cons (x.here + 1 + es.length + 1) (hi.tf (by omega))
        (.cons (x.here + 1) (.num (callSuper_effect hb.1) (by omega) (by omega)) .nil)))
  | @index g g1 g2 g3 g4 g' e i c1 c2 d h1 hd h0 h2 h3 hg ih1 ih2 =>
    intro x N hA hb hN hc
    have hx : x.enter = x := by
      unfold Heights.enter
      cases hx : x.chain with
      | none => exact absurd hx (hc _ rfl)
      | some y => rfl
    simp only [Node.balanced, balanced, Bool.and_eq_true, hx] at hb
    subst hg
    have := hA.fits.low
    have hA1 := hA.gen h1 rfl
    have hA2 := hA1.arg h0
    have hN3 := (slotRel.trans (slotRel.setTemps _ _) (slotRel.setCallDepth h3)).le (hA2.gen h2 rfl).inv hN
    have hN1 := (slotRel.trans (slotRel.setCallDepth h0) (slotRel.trans (slotRel.setTemps _ _) (h2.rel slotRel))).le hA1.inv hN3
    have t : Dice.TF N x.inner.targets x.low (x.here + 1) c2 (x.here + 2) := ih2 _ N hA2 hb.2 hN3 nl
    exact .cons (x.here + 1) (ih1 x N hA hb.1 hN1 nl) (.cons (x.here + 2) t.inner
      (.cons (x.here + 1) (.op rfl (by omega) (by omega)) .nil))
  | @seqNil g g' t c h ih =>
    intro x N hA hb hN _
    simp only [Node.balanced, balancedAll, Bool.true_and] at hb
    exact ih x N hA hb hN (fun _ h => by cases h)
  | @seqCons g g1 g' e es t c1 c2 h1 h2 ih1 ih2 =>
    intro x N hA hb hN _
    simp only [Node.balanced, balancedAll, Bool.and_eq_true] at hb
    have := hA.fits.low
    have hA1 := hA.gen h1 rfl
    exact .cons (x.here + 1) (ih1 x N hA hb.1.1 ((h2.rel slotRel).le hA1.inv hN) nl)
      (.cons x.here (.op rfl (by omega) (by omega)) (.cons (x.here + 1)
        (ih2 x N hA1 (by simpa only [Node.balanced, Bool.and_eq_true] using ⟨hb.1.2, hb.2⟩) hN (fun _ h => by cases h)) .nil))
  | @elsSome g g' e c h ih =>
    intro x N hA hb hN _
    simp only [Node.balanced, balancedOpt] at hb
    exact ih x N hA hb hN nl
  | @elsNone g =>
    intro x N hA hb hN _
    have := hA.fits.low
    exact .op rfl (by omega) (by omega)
  | @itemsNil g => intro x N hA hb hN _; exact .nop
  | @itemsCons g g1 g' e es c1 c2 h1 h2 ih1 ih2 =>
    intro x N hA hb hN _
    simp only [Node.balanced, balancedItems, Bool.and_eq_true] at hb
    have hA1 := hA.gen h1 rfl
    have t : Dice.TF N x.targets x.low (x.here + 1) c2 (x.here + 1 + es.length) :=
      ih2 (x.over 1) N (hA1.over 1) hb.2 hN (fun _ h => by cases h)
    show Dice.TF N x.targets x.low x.here _ (x.here + (es.length + 1))
    rw [show x.here + (es.length + 1) = x.here + 1 + es.length by omega]
    exact .seq (ih1 x N hA hb.1 ((h2.rel slotRel).le hA1.inv hN) nl) t
  | @argsNil g => intro x N hA hb hN _; exact .nop
  | @argsCons g g1 g2 g3 g' e es c1 c2 d hd h0 h1 h2 h3 ih1 ih2 =>
    intro x N hA hb hN _
    simp only [Node.balanced, balancedArgs, Bool.and_eq_true] at hb
    have hA2 := hA.arg h0
    have hA3 := hA.counted hd h0 h1 rfl h2
    have hN2 := (slotRel.trans (slotRel.setCallDepth h2) (h3.rel slotRel)).le (hA2.gen h1 rfl).inv hN
    have t1 : Dice.TF N x.inner.targets x.low (x.here + 1) c1 (x.here + 2) := ih1 _ N hA2 hb.1 hN2 nl
    have t2 : Dice.TF N x.inner.targets x.low (x.here + 2) c2 (x.here + 2 + es.length) :=
      ih2 _ N hA3 hb.2 hN (fun _ h => by cases h)
    show Dice.TF N x.inner.targets x.low (x.here + 1) _ (x.here + 1 + (es.length + 1))
    rw [show x.here + 1 + (es.length + 1) = x.here + 2 + es.length by omega]
    exact .seq t1 t2
  | @fieldsNil g => intro x N hA hb hN _; exact .nop
  | @fieldsCons g g1 g' f e fs c1 c2 h1 h2 ih1 ih2 =>
    intro x N hA hb hN _
    simp only [Node.balanced, balancedFields, Bool.and_eq_true] at hb
    have := hA.fits.low
    have hA1 := hA.gen h1 rfl
    exact .cons (x.here + 2) (.num rfl (by omega) (by omega))
      (.cons (x.here + 3) (ih1 (x.over 2) N (hA.over 2) hb.1 ((h2.rel slotRel).le hA1.inv hN) nl)
        (.cons (x.here + 2) (.sym rfl (by omega) (by omega)) (.cons (x.here + 1) (.op rfl (by omega) (by omega))
          (.cons (x.here + 1) (ih2 x N hA1 hb.2 hN (fun _ h => by cases h)) .nil))))
  | @baseSome g g' e c h ih =>
    intro x N hA hb hN _
    simp only [Node.balanced, balancedOpt] at hb
    exact ih x N hA hb hN nl
  | @baseNone g g' i h => intro x N hA hb hN _; exact h.tf hA.fits.low
  | @clsNil g k slot => intro x N hA hb hN _; exact .nop
  | @clsFn g g1 g' k slot name args ret body rest c1 c2 fk fn bc id hk hr hu hg hc h2 ih1 ih2 =>
    intro x N hA hb hN _
    simp only [Node.balanced, balancedFns, Bool.and_eq_true] at hb
    have := hA.fits.low
    have hA1 := hA.afterFn hg
    exact .cons (x.here + 2) (fn_tf hg hc ih1 hA hb.1 ((h2.rel slotRel).le hA1.inv hN) (by omega))
      (.cons (x.here + 1) (storeMember_tf _ _ _ hA.fits.low)
        (.cons (x.here + 1) (ih2 x N hA1 hb.2 hN (fun _ h => by cases h)) .nil))
  | @clsOp g g1 g' k slot op args ret body rest c1 c2 a fn bc id ha hat hu hg hc h2 ih1 ih2 =>
    intro x N hA hb hN _
    simp only [Node.balanced, balancedFns, Bool.and_eq_true] at hb
    have := hA.fits.low
    have hA1 := hA.afterFn hg
    exact .cons (x.here + 2) (fn_tf hg hc ih1 hA hb.1 ((h2.rel slotRel).le hA1.inv hN) (by omega))
      (.cons x.here (.sym rfl (by omega) (by omega)) (.cons (x.here + 1) (.num rfl (by omega) (by omega))
        (.cons (x.here + 1) (ih2 x N hA1 hb.2 hN (fun _ h => by cases h)) .nil)))
  | @block g g1 g2 g3 g' k es t c vars h0 hs h hp ih =>
    intro x N hA hb hN _
    simp only [Node.balanced, Bool.and_eq_true] at hb
    have := hA.fits.low
    have hA1 := hA.push h0
    have hA2 : At x.inner g2 := hA1.of (scanDecls_shape hs) (scanDecls_pending hs) (slotRel.scanDecls hs)
    have hN3 := (slotRel.popScope hp).le (hA2.gen h rfl).inv hN
    have t : Dice.TF N x.inner.targets x.low x.here c (x.here + 1) :=
      ih x.inner N hA2 (by simpa only [Node.balanced, Bool.and_eq_true] using hb) hN3 (fun _ h => by cases h)
    cases k with
    | loop =>
      exact .cons (x.here + 1) t.inner (.cons x.here (.op rfl (by omega) (by omega))
        (.cons x.here (closeCode_tf _ (by omega)) .nil))
    | block => exact .cons (x.here + 1) t.inner (.cons (x.here + 1) .nop (.cons (x.here + 1) (closeCode_tf _ (by omega)) .nil))
  | @fnBody g g1 g2 g3 g4 g5 g' k args es t c1 c2 c3 vars hsup h0 ha hs h hv he hp ih =>
    intro x N hA hb hN _
    simp only [Node.balanced, Bool.and_eq_true, beq_iff_eq] at hb
    obtain ⟨⟨hh, hl⟩, hb⟩ := hb
    simp only [Option.map_eq_some_iff] at hp
    obtain ⟨⟨vars', g6⟩, hp, rfl⟩ := hp
    have hA1 := hA.push h0
    have hA2 : At x.inner g2 := hA1.of ha.shape ha.pending (ha.rel slotRel)
    have hA3 : At x.inner g3 := hA2.of (scanDecls_shape hs) (scanDecls_pending hs) (slotRel.scanDecls hs)
    have hN4 := (slotRel.trans (he.rel slotRel) (slotRel.popScope hp)).le (hA3.gen h rfl).inv hN
    have t : Dice.TF N x.inner.targets x.low x.here c2 (x.here + 1) :=
      ih x.inner N hA3 (by simpa only [Node.balanced, Bool.and_eq_true] using hb) hN4 (fun _ h => by cases h)
    rw [hh, hl] at t
    exact .cons 0 (ha.tf (by omega)) (.cons 1 t (.cons 1 (closeCode_tf _ (by omega)) (.cons 1 he.tf .nil)))

end Dice
