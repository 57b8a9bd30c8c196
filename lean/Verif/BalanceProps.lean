import Verif.BalanceGen
import Verif.Findings

/-!
# Stack discipline of compiled programs

What balance of the source means for the bytecode that the compiler makes of it and for the machine that runs it.
-/

namespace Dice

/-! ## Compiled programs are good code -/

theorem at_module {slot : Nat} {g : Env} (h0 : Env.addLocal nameExport (.initialized false) [{ kind := .module }] = some (slot, g)) :
    At {} g := by
  refine At.addLocal (g := [{ kind := .module }]) ?_ h0
  exact ⟨⟨Nat.le_refl _, rfl, ⟨fun _ => rfl, fun _ => rfl⟩⟩, List.Pairwise.nil, scopeInv_new _, by simp, trivial⟩

theorem at_start (kind : CompilerKind) : At {} [{ kind }] :=
  ⟨⟨Nat.le_refl _, rfl, ⟨fun _ => rfl, fun _ => rfl⟩⟩, List.Pairwise.nil, scopeInv_new _, by simp, trivial⟩

theorem ProgGen.tf {kind : CompilerKind} {root : Expr} {fn : Ctx} {c : Code} (h : ProgGen kind root fn c)
    (hb : balanced {} root = true) : TF fn.scopes.slotCount {} 0 0 c 1 := by
  cases h with
  | module h0 h hv =>
    exact .cons 1 (h.tf {} _ (at_module h0) hb (Nat.le_refl _) (fun _ h => by cases h))
      (.cons 0 (.op rfl (by omega) (by omega)) (.cons 1 (.num rfl (by omega) (by omega)) .nil))
  | other _ h => exact h.tf {} _ (at_start kind) hb (Nat.le_refl _) (fun _ h => by cases h)

/-- Balanced programs compile to code that follows the discipline. -/
theorem compile_good {kind : CompilerKind} {root : Expr} {bc : Bytecode} (h : compile kind root = .ok bc)
    (hb : balanced {} root = true) (hf : Fits bc) : GoodCode bc := by
  obtain ⟨fn, c, hp, hc⟩ := compile_gen h
  have ht := hp.tf hb
  refine .mk (hc.layout hf) (hc.slots ▸ ht.typed) (fun b h => ht.fns b h ?_)
  obtain ⟨n, i, hm⟩ := (hc.layout hf).fn_mem h
  cases hf with
  | mk _ _ _ fns => exact fns b n i hm

/-- A module has a slot for its exports. -/
theorem compile_module_slots {root : Expr} {bc : Bytecode} (h : compile .module root = .ok bc) : 0 < bc.slotCount := by
  obtain ⟨fn, c, hp, hc⟩ := compile_gen h
  rw [hc.slots]
  cases hp with
  | @module _ g slot _ _ v h0 h hv =>
    have inv := (h.rel slotRel (at_module h0).inv).1
    have : v.slot < fn.scopes.slotCount := visible_slot_lt inv.2.1 (local?_mem hv).1
    omega
  | other hk => exact absurd rfl hk

/-- A world is good if its natives give only good functions and its modules are compiled from balanced source. -/
theorem world_good {w : World}
    (native : ∀ i args h, (∀ v ∈ args, GoodValue v) → GoodHeap h →
      GoodHeap (w.native i args h).2 ∧ ∀ v, (w.native i args h).1 = .ok v → GoodValue v)
    (loader : ∀ name bc, w.loader name = .ok bc →
      ∃ root, compile .module root = .ok bc ∧ balanced {} root = true ∧ Fits bc) : GoodWorld w :=
  ⟨native, fun name bc h => by
    obtain ⟨root, hc, hb, hf⟩ := loader name bc h
    exact ⟨compile_good hc hb hf, compile_module_slots hc⟩⟩

/-! ## Expressions -/

/-- **C17.**  A balanced expression, compiled on its own and run in a frame large enough for its variables on
top of any stack, pushes exactly one value; below its frame every value is as before, except that captured
variables may have been assigned. -/
theorem expression_pushes_one_partial {kind : CompilerKind} {root : Expr} {bc : Bytecode} (h : compile kind root = .ok bc)
    (hb : balanced {} root = true) (hf : Fits bc) {w : World} (hw : GoodWorld w) {m m' : VM} (g : GoodVM m) {f : Frame}
    (hsize : f.start + bc.slotCount ≤ f.stop) (htop : m.ptr = f.stop) {ups : Option (List Nat)} {n : Nat}
    (hr : loop w n bc f ups 0 m = (.ok (), m')) :
    m'.ptr = m.ptr + 1 ∧ ∀ j, j < f.start → m'.mem j = m.mem j ∨ m.OpenAt j := by
  obtain ⟨hp, hk⟩ := (loop_moves hw (fun j _ => calls_good hw j) (compile_good h hb hf) ups hsize g htop).ok _ _ hr
  exact ⟨by omega, fun j hj => (hk j (.inl hj)).1⟩

/-- What is left of the stack when an expression in the position `x` ends: one more value after a normal end,
the height that the target of a jump needs after a jump, only the result after a return. -/
def EndsAt (x : Heights) (f : Frame) : Sig → Nat → Prop
  | .normal, p => p = f.stop + x.here + 1
  | .brk, p => ∃ h, x.brk = some h ∧ p = f.stop + h
  | .cont, p => ∃ h, x.cont = some h ∧ p = f.stop + h
  | .exit, p => ∃ h, x.chain = some h ∧ p = f.stop + h + 1
  | .stop, p => p = f.stop + 1

/-- **C17, C22.**  The same for an expression anywhere in a program: with `x.here` values of the function below
it, its code keeps all of them and pushes one value, or ends in a jump that finds the stack as its target needs
it. -/
theorem subexpression_pushes_one_partial {g g' : Env} {e : Expr} {c : Code} (h : Gen g (.expr e) c g') {x : Heights}
    (hx : At x g) (hlow : x.low = x.here) (hb : balanced x e = true) (hfn : ∀ b, c.HasFn b → Fits b)
    {w : World} (hw : GoodWorld w) {m m' : VM} (gm : GoodVM m) {f : Frame} (hsize : f.start + g'.slotCount ≤ f.stop)
    (htop : m.ptr = f.stop + x.here) {ups : Option (List Nat)} {n k : Nat} {s : Sig}
    (hr : exec w f ups c n m = (.ok (s, k), m')) :
    EndsAt x f s m'.ptr ∧ (∀ j, j < f.start → m'.mem j = m.mem j ∨ m.OpenAt j) ∧
      (s ≠ .stop → ∀ j, f.stop ≤ j → j < m.ptr → m'.mem j = m.mem j ∨ m.OpenAt j) := by
  have ht : TF g'.slotCount x.targets x.low x.here c (x.here + 1) := h.tf x _ hx hb (Nat.le_refl _) (fun _ h => by cases h)
  obtain ⟨⟨hp, -⟩, hk⟩ := (exec_moves hw hsize (b := n) (fun j _ => calls_good hw j) ht.typed
    (fun b hb => ht.fns b hb (hfn b hb)) n (Nat.le_refl _) gm htop (ups := ups)).ok _ _ hr
  refine ⟨?_, fun j hj => (hk j (.inl hj)).1, fun hs j h1 h2 => (hk j ?_).1⟩
  · cases s with
    | normal => exact hp
    | brk => exact hp
    | cont => exact hp
    | exit =>
      obtain ⟨h, he, hp⟩ := hp
      simp only [Heights.targets, Option.map_eq_some_iff] at he
      obtain ⟨h', he, rfl⟩ := he
      exact ⟨h', he, by omega⟩
    | stop => exact hp
  · unfold ExecKeep
    rw [if_neg hs, hlow]
    exact .inr (.inl ⟨h1, by omega⟩)

/-! ## Calls -/

/-- **C24.**  A call that returns replaces the callee and its arguments by one value and keeps everything below
them, except captured variables. -/
theorem call_keeps_frame_partial {w : World} (hw : GoodWorld w) {m m' : VM} (g : GoodVM m) {n argc : Nat}
    (hr : callFn w n argc m = (.ok (), m')) :
    m'.ptr + argc = m.ptr ∧ GoodVM m' ∧ ∀ j, j + argc + 1 < m.ptr → m'.mem j = m.mem j ∨ m.OpenAt j := by
  have h := (calls_good hw n).callFn argc m (fun j => j + argc + 1 < m.ptr) g (fun _ h => h)
  obtain ⟨hp, hk⟩ := h.ok () m' hr
  exact ⟨hp, by have := h.good; rw [show ((callsAt w n).callFn argc m).2 = m' from congrArg Prod.snd hr] at this; exact this,
    fun j hj => (hk j hj).1⟩

/-! ## Runs -/

theorem run_moves {w : World} (hw : GoodWorld w) {m : VM} (g : GoodVM m) {bc : Bytecode} (hb : GoodCode bc) (n : Nat) :
    Shifts m (run w n bc) (fun j => j < m.ptr) (fun v p => p = m.ptr ∧ GoodValue v) := by
  unfold run
  refine (reserve_moves g w _).bind fun f m1 g1 h1 => ?_
  have hs2 : ∀ j, j < m.ptr → j < f.start := fun j hj => by omega
  refine ((execute_moves hw (fun j _ => calls_good hw j) hb none (by omega) g1 (by omega)).mono
    (fun j hj => .inl (hs2 j hj)) (fun _ _ h => h)).bind fun v m3 g3 h3 => ?_
  refine (release_moves g3 w h3.1 hs2).bind fun _ m4 g4 h4 => ?_
  exact .pure g4 ⟨by omega, h3.2⟩

/-- **C17, C44.**  A successful run of a balanced program leaves the stack as it was, except captured variables. -/
theorem run_restores_stack_partial {kind : CompilerKind} {root : Expr} {bc : Bytecode} (h : compile kind root = .ok bc)
    (hb : balanced {} root = true) (hf : Fits bc) {w : World} (hw : GoodWorld w) {m m' : VM} (g : GoodVM m) {n : Nat} {v : Value}
    (hr : run w n bc m = (.ok v, m')) :
    m'.ptr = m.ptr ∧ ∀ j, j < m.ptr → m'.mem j = m.mem j ∨ m.OpenAt j := by
  obtain ⟨hp, hk⟩ := (run_moves hw g (compile_good h hb hf) n).ok _ _ hr
  exact ⟨hp.1, fun j hj => (hk j hj).1⟩

/-- The state after any run, successful or not, is again good, so the theorems apply to sequences of runs. -/
theorem run_good {kind : CompilerKind} {root : Expr} {bc : Bytecode} (h : compile kind root = .ok bc)
    (hb : balanced {} root = true) (hf : Fits bc) {w : World} (hw : GoodWorld w) {m : VM} (g : GoodVM m) (n : Nat) :
    GoodVM (run w n bc m).2 := (run_moves hw g (compile_good h hb hf) n).good

/-! ## The hypotheses can be met -/

/-- A check for `Fits`, down to functions nested `d` deep. -/
def fitsUpTo : Nat → Bytecode → Bool
  | 0, _ => false
  | d + 1, bc => decide (bc.data.length < 32768) && decide (bc.slotCount ≤ 256) && decide (bc.upvalueCount ≤ 256) &&
      bc.constants.all fun c =>
      match c with
      | .fn code _ _ => fitsUpTo d code
      | _ => true

theorem fitsUpTo_sound {d : Nat} {bc : Bytecode} (h : fitsUpTo d bc = true) : Fits bc := by
  induction d generalizing bc with
  | zero => cases h
  | succ d ih =>
    simp only [fitsUpTo, Bool.and_eq_true, decide_eq_true_eq, List.all_eq_true] at h
    exact ⟨h.1.1.1, h.1.1.2, h.1.2, fun code n i hm => ih (h.2 _ hm)⟩

namespace Findings

theorem machine_good : GoodVM machine where
  mem := fun _ => trivial
  heap :=
    { maps := fun mp h k v hv => by
        simp only [machine, List.mem_cons, List.not_mem_nil, or_false, or_self] at h
        subst h
        cases hv
      arrays := fun a h => by cases h
      methods := fun c h k v hv => by
        simp only [machine, List.mem_cons, List.not_mem_nil, or_false] at h
        rcases h with rfl | rfl <;> cases hv }
  cells := fun v h => by cases h
  globals := fun k v h => by
    simp only [machine, List.mem_cons, List.not_mem_nil, or_false, Prod.mk.injEq] at h
    rcases h with ⟨-, rfl⟩ | ⟨-, rfl⟩ <;> trivial
  modules := fun k v h => by cases h
  clean := fun _ _ => .inl rfl

theorem world_good (debug : Bool) : GoodWorld (world debug) where
  native := fun i args h _ hh => ⟨hh, fun v hv => by cases hv; trivial⟩
  loader := fun name bc h => by cases h

/-- The script is accepted, balanced, within the limits of the encoding, and gives `v`. -/
def Applies (e : Expr) (v : Value) : Prop :=
  ∃ bc m, compile .script e = .ok bc ∧ balanced {} e = true ∧ Fits bc ∧ run (world true) 2000 bc machine = (.ok v, m)

def applies (e : Expr) (v : Value) : Bool :=
  balanced {} e && match compile .script e with
  | .error _ => false
  | .ok bc => fitsUpTo 9 bc && isOk v 0 (run (world true) 2000 bc machine).1 (run (world true) 2000 bc machine).2

theorem applies_sound {e : Expr} {v : Value} (h : applies e v = true) : Applies e v := by
  unfold applies at h
  unfold Applies
  cases hc : compile .script e with
  | error _ => rw [hc] at h; simp at h
  | ok bc =>
    rw [hc] at h
    simp only [Bool.and_eq_true] at h
    obtain ⟨hb, hf, h⟩ := h
    cases hr : run (world true) 2000 bc machine with
    | mk o m =>
      rw [hr] at h
      cases o with
      | ok x =>
        simp only [isOk, Bool.and_eq_true] at h
        rw [same_eq h.1] at hr
        exact ⟨bc, m, rfl, hb, fitsUpTo_sound hf, hr⟩
      | _ => cases h

/-- A function with a loop, a `break` in a nested block and an early `return`, called as an argument of itself:
`fn f(n) { let mut i = 0; loop { if i == n { break; } i += 1; } if i == 3 { return 7; } i }  f(f(3)) + 1`. -/
example : Applies (.block
    [.fnDecl "f" [⟨"n", none⟩] none (.block
      [.varDecl (.singular "i") true (.int 0) none,
       .loop (.block [.ifExpr (.binary .equals (.ident "i") (.ident "n")) (.block [.break_] none) none,
         .assign .add (.ident "i") (.int 1)] none),
       .ifExpr (.binary .equals (.ident "i") (.int 3)) (.block [.return_ (some (.int 7))] none) none]
      (some (.ident "i")))]
    (some (.binary .add (.call (.ident "f") [.call (.ident "f") [.int 3]]) (.int 1)))) (.int 8) :=
  applies_sound (by decide +kernel)

end Findings

end Dice
