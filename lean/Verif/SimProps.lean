import Verif.BalanceProps
import Verif.SimModule
import Verif.VmMono

/-!
# Compiled code computes what the source says

C18: the bytecode of a script, run by the machine, gives the value or the error that the reference evaluator (`Eval`)
gives for the syntax tree, with the same effects on objects and globals, and runs on where the evaluator does.
-/

namespace Dice.Sim

open Src (SEnv State Out S Jump)

/-! ## Where a program starts -/

/-- A heap without functions that a program made. -/
structure CleanHeap (h : Heap) : Prop where
  maps : ∀ x ∈ h.maps, ∀ p ∈ x, p.2.Plain
  arrays : ∀ x ∈ h.arrays, ∀ v ∈ x.elements, v.Plain
  classes : ∀ x ∈ h.classes, ∀ p ∈ x.methods, p.2.Plain

/-- A machine on which no program left anything behind. -/
structure Start (m : VM) : Prop where
  heap : CleanHeap m.heap
  globals : ∀ p ∈ m.globals, p.2.Plain
  modules : ∀ p ∈ m.modules, p.2.Plain
  open_ : m.openUps = []

theorem all₂_self {α : Type} {R : α → α → Prop} : ∀ {l : List α}, (∀ x ∈ l, R x x) → All₂ R l l
  | [], _ => .nil
  | x :: l, h => .cons (h x (by simp)) (all₂_self fun y hy => h y (by simp [hy]))

theorem mapRel_self {κ : List Value} {a : ValueMap} (h : ∀ p ∈ a, p.2.Plain) : MapRel κ a a :=
  all₂_self fun p hp => ⟨rfl, .plain (h p hp)⟩

theorem CleanHeap.rel {κ : List Value} {h : Heap} (c : CleanHeap h) : HeapRel κ h h where
  maps := all₂_self fun x hx => mapRel_self (c.maps x hx)
  objects := rfl
  arrays := all₂_self fun x hx => ⟨all₂_self fun v hv => .plain (c.arrays x hx v hv), rfl⟩
  classes := all₂_self fun x hx => ⟨rfl, mapRel_self (c.classes x hx), rfl, rfl, rfl⟩

/-- The evaluator's state for a machine. -/
def stateOf (m : VM) : State := { heap := m.heap, globals := m.globals, modules := m.modules }

/-- The evaluator and the machine between two programs: objects, globals, modules and functions correspond, and no
variable lives on the stack. -/
structure Ready (μ : Nat → Option Nat) (κ : List Value) (σ : State) (m : VM) : Prop where
  inv : Inv (fun _ => none) μ κ σ m
  capt : ∀ l a, μ l = some a → ∃ cl ∈ σ.fns, ∃ x, (x, l) ∈ cl.env

/-- **C18.**  A new machine is a place where programs can start. -/
theorem Start.ready {m : VM} (h : Start m) : Ready (fun _ => none) [] (stateOf m) m where
  inv := {
    heap := h.heap.rel
    globals := mapRel_self h.globals
    modules := mapRel_self h.modules
    vars := fun _ _ _ h => by cases h
    bound := fun _ _ h => by cases h
    inj := fun _ _ _ h => by cases h
    opens := fun a p ha => by
      have : a ∈ m.openUps := ha
      rw [h.open_] at this
      cases this
    opened := fun _ _ _ h => by cases h
    closed := fun _ _ h => by cases h
    muInj := fun _ _ _ h => by cases h
    muBound := fun _ _ h => by cases h
    fns := .nil }
  capt := fun _ _ h => by cases h

/-- The variables of a program. -/
def mainCx (m : VM) (f : Frame) : Cx := ⟨f, none, fun _ => none, m.mem, [], fun _ => none, .plain none⟩

theorem mainCx_lam (m : VM) (f : Frame) : (mainCx m f).lam [] = fun _ => none := by
  funext p
  unfold Cx.lam
  split <;> rfl

theorem Ready.st {μ : Nat → Option Nat} {κ : List Value} {σ : State} {m : VM} (h : Ready μ κ σ m) (k : Nat) :
    St (mainCx m ⟨m.ptr, m.ptr + k⟩) (fun _ => True) ⟨μ, κ, []⟩ [] σ { m with ptr := m.ptr + k } := by
  refine ⟨?_, ?_, fun _ _ _ _ => trivial, by show m.ptr + 0 ≤ m.ptr + k; omega⟩
  rotate_left
  · exact {
      ups := fun _ _ h => by cases h
      low := fun _ _ _ => rfl
      temps := .nil
      room := fun h => absurd rfl h
      capt := h.capt
      wide := by show m.ptr ≤ m.ptr + k; omega }
  show Inv ((mainCx m ⟨m.ptr, m.ptr + k⟩).lam []) _ _ _ _
  rw [mainCx_lam]
  exact h.inv.scratch _ fun _ _ h => by cases h

/-! ## Programs -/

section
variable {w : World} {known : Src.Known} {src : Src.Sources} {es : List Expr} {t : Option Expr} {bc : Bytecode} {m : VM} {n : Nat}
  {μ : Nat → Option Nat} {κ : List Value} {σ : State}

/-- The end of a program on the machine `m`: with the value `v` and the state `σ'` for the evaluator, with `u` and `m'` for
the machine.  The functions made before keep their counterparts. -/
def Ended (κ : List Value) (m : VM) (v : Value) (σ' : State) (u : Value) (m' : VM) : Prop :=
  m'.ptr = m.ptr ∧ (∀ p, p < m.ptr → m'.mem p = m.mem p) ∧
    ∃ μ' κ', κ <+: κ' ∧ VRel κ' v u ∧ HeapRel κ' σ'.heap m'.heap ∧ MapRel κ' σ'.globals m'.globals ∧
      MapRel κ' σ'.modules m'.modules ∧ Ready μ' κ' σ' m'

/-- What the evaluator says about a program, and the runs of its bytecode on the machine. -/
def Agrees (κ : List Value) (run : Nat → V Value) (m : VM) (n : Nat) : Out Value × State → Prop
  | (.ok v, σ) => ∃ k u m', run k m = (.ok u, m') ∧ Ended κ m v σ u m'
  | (.err e, _) => ∃ k m', run k m = (.err e, m')
  | (.abort, _) => ∃ k s m', run k m = (.panic s, m')
  | (.timeout, _) => ∀ k, k ≤ n → (run k m).1 = .timeout
  | (.stuck, _) => True
  | (.jump _, _) => False

/-- The run ends because the stack is full. -/
def Overflows (run : Nat → V Value) (m : VM) : Prop := ∃ k s m', run k m = (.panic s, m') ∧ maxStack ≤ m'.ptr

/-- The code of a program follows the evaluator. -/
theorem program_sim (hn : NativeRel w known) (hs : SourceRel w src) {fn : Ctx} {c : Code} (hg : ProgGen .script (.block es t) fn c)
    (code : FnCode fn c bc) (hf : Fits bc) (hm : Ready μ κ σ m) :
    Sim n True (exec w ⟨m.ptr, m.ptr + bc.slotCount⟩ none c) { m with ptr := m.ptr + bc.slotCount } (Src.program w known src n (.block es t) σ)
      (Norm fun v σ' m' => ∃ W', κ <+: W'.kap ∧ W'.seg = [] ∧
        St (mainCx m ⟨m.ptr, m.ptr + bc.slotCount⟩) (fun _ => True) W' [v] σ' m') NoJump := by
  cases hg with
  | other hk h =>
  have hst := hm.st bc.slotCount
  have inv : StackInv [({ kind := .script } : Ctx)] := ⟨List.Pairwise.nil, scopeInv_new _, by simp, trivial⟩
  have good : Good (mainCx m ⟨m.ptr, m.ptr + bc.slotCount⟩) [{ kind := .script }] := ⟨inv, ⟨by simp, trivial⟩, .nil, _, rfl, rfl⟩
  have hnov : Env.vars [fn] = [] := by
    rw [Env.vars_view]
    have hv : Env.view [fn] = Env.view [{ kind := .script }] := by
      cases h with
      | chain he => cases he
      | blockExpr h =>
        cases h with
        | block h1 hs h hp => exact (Widens.scope h1 (widensRel.trans (widensRel.scanDecls hs) h.widens) hp inv).2.1
    rw [hv]
    rfl
  have hd : Dest (mainCx m ⟨m.ptr, m.ptr + bc.slotCount⟩) (fun _ => True) [fn] := by
    cases hf with
    | mk _ hslots hcapt _ =>
    refine ⟨?_, fun _ _ => trivial, ?_, ?_, ?_⟩
    · rintro _ _ i d l ⟨⟩ h1 h2
      cases d <;> cases h2
    · show fn.scopes.slotCount ≤ 256
      rw [← code.slots]; exact hslots
    · rintro _ _ ⟨⟩
      rw [← code.captured]; exact hcapt
    · show m.ptr + fn.scopes.slotCount ≤ m.ptr + bc.slotCount
      rw [← code.slots]; exact Nat.le_refl _
  have hfit : ∀ b, c.HasFn b → Fits b := by
    intro b hb
    obtain ⟨nm, i, hm⟩ := (code.layout hf).fn_mem hb
    cases hf with
    | mk _ _ _ hfns => exact hfns b nm i hm
  have hsim : FollowsE w n [{ kind := .script }] (Src.eval w (Src.calls w known src n) · n false (.block es t)) c [fn] :=
    (show Follows w (Src.calls w known src n) n _ (.expr (.block es t)) c [fn] from
      gen_follows (callSpec hn hs n).1 (callSpec hn hs n).2 h).1 (.inl rfl)
  have hmatch : Matches [({ kind := .script } : Ctx)] ([] : SEnv) := rfl
  have := hsim (C := mainCx m ⟨m.ptr, m.ptr + bc.slotCount⟩) (R := True) ⟨good, hd, hfit, hmatch, hst, fun _ => ⟨rfl, rfl⟩⟩
  refine Sim.operand (this.thenE (Q := Norm fun v σ' m' => ∃ W', κ <+: W'.kap ∧ W'.seg = [] ∧
    St (mainCx m ⟨m.ptr, m.ptr + bc.slotCount⟩) (fun _ => True) W' [v] σ' m') ?_)
  rintro ⟨v, ρ⟩ σ1 s m1 ⟨hs, W', h1, -, -, h4, h5⟩
  have hseg : W'.seg = [] := by
    have := h4.length
    rw [hnov] at this
    exact List.eq_nil_of_length_eq_zero this
  exact ⟨v, σ1, rfl, hs, W', h1.kap, hseg, h5⟩

theorem compile_script {w : World} {root : Expr} {bc : Bytecode} (h : compile .script root = .ok bc) (hf : Fits bc) :
    ∃ fn c, ProgGen .script root fn c ∧ FnCode fn c bc ∧
      ∀ (f : Frame) (ups : Option (List Nat)) (n : Nat), loop w n bc f ups 0 = exec w f ups c n >>= endRun := by
  obtain ⟨fn, c, hp, hc⟩ := compile_gen h
  exact ⟨fn, c, hp, hc, fun f ups n => loop_scoped (hc.layout hf) hp.scoped n⟩

/-- The run of a program, in terms of its code. -/
theorem run_cases {c : Code}
    (hrun : ∀ (f : Frame) (ups : Option (List Nat)) (n : Nat), loop w n bc f ups 0 = exec w f ups c n >>= endRun) :
    Overflows (fun k => run w k bc) m ∨ (run w 0 bc m).1 = .timeout ∧
    ∀ n, run w (n + 1) bc m = (exec w ⟨m.ptr, m.ptr + bc.slotCount⟩ none c n >>= fun r => endRun r >>= fun _ =>
      finishExecute w (m.ptr + bc.slotCount) >>= fun v => releaseFrame w ⟨m.ptr, m.ptr + bc.slotCount⟩ >>= fun _ => pure v)
        { m with ptr := m.ptr + bc.slotCount } := by
  by_cases ho : w.debug = true ∧ ¬ m.ptr + bc.slotCount < maxStack
  · refine .inl ⟨0, "Stack Overflowed", { m with ptr := m.ptr + bc.slotCount }, ?_, by show maxStack ≤ m.ptr + _; omega⟩
    unfold run
    exact bind_panic (by unfold reserveSlots; exact if_pos ho)
  · have h1 : reserveSlots w bc.slotCount m = (.ok ⟨m.ptr, m.ptr + bc.slotCount⟩, { m with ptr := m.ptr + bc.slotCount }) := by
      unfold reserveSlots; exact if_neg ho
    refine .inr ⟨?_, ?_⟩
    · unfold run
      rw [bind_ok h1, bind_timeout (m' := { m with ptr := m.ptr + bc.slotCount }) (by rw [execute]; rfl)]
    · intro n
      unfold run
      rw [bind_ok h1, execute, bind_assoc]
      refine (bind_ok (x := V.get) rfl).trans ?_
      rw [hrun]
      simp only [bind_assoc]

/-- **C18.**  A script that the compiler accepts, run by the machine, does what evaluating its syntax tree does, unless
the stack overflows: it gives the same value (functions correspond), the same runtime error, a panic for an aborted
operation, with the same objects and globals; it does not end within the steps that the evaluator was allowed in vain. -/
theorem compiled_program_agrees_partial (hn : NativeRel w known) (hs : SourceRel w src) (h : compile .script (.block es t) = .ok bc) (hf : Fits bc)
    (hm : Ready μ κ σ m) (n : Nat) :
    Overflows (fun k => run w k bc) m ∨ Agrees κ (fun k => run w k bc) m n (Src.program w known src n (.block es t) σ) := by
  obtain ⟨fn, c, hg, code, hrun⟩ := compile_script (w := w) h hf
  rcases run_cases (m := m) hrun with hov | ⟨h0, hr⟩
  · exact .inl hov
  have ends : ∀ {r m'}, Ends (exec w ⟨m.ptr, m.ptr + bc.slotCount⟩ none c) { m with ptr := m.ptr + bc.slotCount } r m' →
      (∀ s, r = .panic s → ∃ k, run w k bc m = (.panic s, m')) ∧ (∀ e, r = .err e → ∃ k, run w k bc m = (.err e, m')) := by
    rintro r m' ⟨k, h1, h2⟩
    cases hx : exec w ⟨m.ptr, m.ptr + bc.slotCount⟩ none c k { m with ptr := m.ptr + bc.slotCount } with
    | mk o m2 =>
      rw [hx] at h1 h2
      simp only at h2
      subst h2
      constructor
      · rintro s rfl
        cases o <;> cases h1
        exact ⟨k + 1, (hr k).trans (bind_panic hx)⟩
      · rintro e rfl
        cases o <;> cases h1
        exact ⟨k + 1, (hr k).trans (bind_err hx)⟩
  rcases program_sim hn hs (n := n) hg code hf hm with ⟨s, m', h1, h2⟩ | hs'
  · obtain ⟨k, hk⟩ := (ends h1).1 s rfl
    exact .inl ⟨k, s, m', hk, h2⟩
  · refine .inr ?_
    cases ho : Src.program w known src n (.block es t) σ with
    | mk o σ' =>
      rw [ho] at hs'
      cases o with
      | ok v =>
        obtain ⟨s, m', ⟨k, h1, h2⟩, rfl, W', w1, w2, h3⟩ := hs'
        cases hx : exec w ⟨m.ptr, m.ptr + bc.slotCount⟩ none c k { m with ptr := m.ptr + bc.slotCount } with
        | mk o m2 =>
          rw [hx] at h1 h2
          simp only at h2
          subst h2
          cases o with
          | err | panic | timeout => cases h1
          | ok a =>
            obtain ⟨a, j⟩ := a
            cases h1
            have hx' : exec w ⟨m.ptr, m.ptr + bc.slotCount⟩ none c (k + 1) { m with ptr := m.ptr + bc.slotCount } = (.ok (.normal, j + 1), m2) := by
              rcases exec_later w ⟨m.ptr, m.ptr + bc.slotCount⟩ none c k 1 { m with ptr := m.ptr + bc.slotCount } with h | h
              · rw [hx] at h; cases h
              · rw [hx] at h; exact h
            obtain ⟨-, q2, -⟩ := h3.rest.temps.uncons
            have hp := h3.ptr_eq
            obtain ⟨e1, e2⟩ := finish_ok (w := w) (m := m2) (f := ⟨m.ptr, m.ptr + bc.slotCount⟩) (depth := m.ptr + bc.slotCount)
              (u := m2.mem (m.ptr + bc.slotCount)) hp rfl (h3.rest.room (by simp)) h3.rest.wide rfl
            have hi := h3.inv
            rw [w2, mainCx_lam] at hi
            rw [hp, List.length_singleton, Nat.add_sub_cancel] at q2
            refine ⟨k + 2, m2.mem (m.ptr + bc.slotCount), _,
              (hr (k + 1)).trans ((bind_ok hx').trans ((bind_ok (x := endRun (.normal, j + 1)) rfl).trans ((bind_ok e1).trans (bind_ok e2)))),
              rfl, ?_, W'.mu, W'.kap, w1, q2, hi.heap, hi.globals, hi.modules, hi.scratch _ fun _ _ h => (by cases h), h3.rest.capt⟩
            intro p hlt
            show memClear m2.drop.mem m.ptr (m.ptr + bc.slotCount) p = _
            unfold memClear
            rw [if_neg (by omega)]
            show upd m2.mem (m2.ptr - 1) .null p = _
            rw [upd_other (by rw [hp]; show p ≠ m.ptr + bc.slotCount + 1 - 1; omega)]
            exact h3.rest.low p hlt rfl
      | err e => obtain ⟨m', h1⟩ := hs'; obtain ⟨k, hk⟩ := (ends h1).2 e rfl; exact ⟨k, m', hk⟩
      | abort => obtain ⟨s, m', h1⟩ := hs'; obtain ⟨k, hk⟩ := (ends h1).1 s rfl; exact ⟨k, s, m', hk⟩
      | stuck => trivial
      | jump j => obtain ⟨m', -, h2⟩ := hs' (by cases j <;> trivial); exact h2
      | timeout =>
        intro k hk
        cases k with
        | zero => exact h0
        | succ k =>
          have := hs' k (by omega)
          show (run w (k + 1) bc m).1 = _
          rw [hr k]
          cases hx : exec w ⟨m.ptr, m.ptr + bc.slotCount⟩ none c k { m with ptr := m.ptr + bc.slotCount } with
          | mk o m2 =>
            rw [hx] at this
            simp only at this
            subst this
            rw [bind_timeout hx]

/-- **C18.**  A value that is not a function comes out of the machine as the evaluator gives it. -/
theorem compiled_value_partial (hn : NativeRel w known) (hs : SourceRel w src) (h : compile .script (.block es t) = .ok bc) (hf : Fits bc)
    (hm : Ready μ κ σ m) {v : Value} {σ' : State}
    (he : Src.program w known src n (.block es t) σ = (.ok v, σ')) (hv : v.kind ≠ .function) :
    Overflows (fun k => run w k bc) m ∨ ∃ k m', run w k bc m = (.ok v, m') := by
  rcases compiled_program_agrees_partial hn hs h hf hm n with ho | ha
  · exact .inl ho
  · rw [he] at ha
    obtain ⟨k, u, m', h1, -, -, μ', κ', -, h2, -⟩ := ha
    refine .inr ⟨k, m', h1.trans ?_⟩
    cases h2 with
    | plain => rfl
    | fn => exact absurd rfl hv
    | bound => exact absurd rfl hv

/-- **C18.**  A result of the machine is the result of the evaluator, where the evaluator covers the program. -/
theorem machine_value_partial (hn : NativeRel w known) (hs : SourceRel w src) (h : compile .script (.block es t) = .ok bc) (hf : Fits bc)
    (hm : Ready μ κ σ m) {u : Value} {m' : VM}
    (hr : run w n bc m = (.ok u, m')) :
    (∃ σ', Src.program w known src n (.block es t) σ = (.stuck, σ')) ∨
      ∃ v σ', Src.program w known src n (.block es t) σ = (.ok v, σ') ∧ Ended κ m v σ' u m' := by
  have same : ∀ {k : Nat} {o : Outcome Value} {m2 : VM}, run w k bc m = (o, m2) → o ≠ .timeout → o = .ok u ∧ m2 = m' := by
    intro k o m2 hk ho
    have := run_deterministic (w := w) (n := k) (n' := n) (bc := bc) (m := m) (by rw [hk]; exact ho) (by rw [hr]; simp)
    rw [hk, hr] at this
    cases this
    exact ⟨rfl, rfl⟩
  rcases compiled_program_agrees_partial hn hs h hf hm n with ⟨k, s, m2, h1, -⟩ | ha
  · cases (same h1 (by simp)).1
  · cases he : Src.program w known src n (.block es t) σ with
    | mk o σ' =>
      rw [he] at ha
      cases o with
      | ok v =>
        obtain ⟨k, u', m2, h1, h2⟩ := ha
        obtain ⟨e1, rfl⟩ := same h1 (by simp)
        cases e1
        exact .inr ⟨v, σ', rfl, h2⟩
      | err e => obtain ⟨k, m2, h1⟩ := ha; cases (same h1 (by simp)).1
      | abort => obtain ⟨k, s, m2, h1⟩ := ha; cases (same h1 (by simp)).1
      | stuck => exact .inl ⟨σ', rfl⟩
      | jump j => exact ha.elim
      | timeout =>
        have := ha n (Nat.le_refl _)
        simp only [hr] at this
        cases this

/-- **C18.**  A runtime error of the machine is the error of the evaluator, where the evaluator covers the program. -/
theorem machine_error_partial (hn : NativeRel w known) (hs : SourceRel w src) (h : compile .script (.block es t) = .ok bc) (hf : Fits bc)
    (hm : Ready μ κ σ m) {e : RtErr} {m' : VM}
    (hr : run w n bc m = (.err e, m')) :
    (∃ σ', Src.program w known src n (.block es t) σ = (.stuck, σ')) ∨ ∃ σ', Src.program w known src n (.block es t) σ = (.err e, σ') := by
  have same : ∀ {k : Nat} {o : Outcome Value} {m2 : VM}, run w k bc m = (o, m2) → o ≠ .timeout → o = .err e := by
    intro k o m2 hk ho
    have := run_deterministic (w := w) (n := k) (n' := n) (bc := bc) (m := m) (by rw [hk]; exact ho) (by rw [hr]; simp)
    rw [hk, hr] at this
    cases this
    rfl
  rcases compiled_program_agrees_partial hn hs h hf hm n with ⟨k, s, m2, h1, -⟩ | ha
  · cases same h1 (by simp)
  · cases he : Src.program w known src n (.block es t) σ with
    | mk o σ' =>
      rw [he] at ha
      cases o with
      | ok v => obtain ⟨k, u', m2, h1, h2⟩ := ha; cases same h1 (by simp)
      | err e' => obtain ⟨k, m2, h1⟩ := ha; cases same h1 (by simp); exact .inr ⟨σ', rfl⟩
      | abort => obtain ⟨k, s, m2, h1⟩ := ha; cases same h1 (by simp)
      | stuck => exact .inl ⟨σ', rfl⟩
      | jump j => exact ha.elim
      | timeout =>
        have := ha n (Nat.le_refl _)
        simp only [hr] at this
        cases this

end

/-! ## Programs that the evaluator covers -/

open Findings (world machine same same_eq)

theorem machine_start : Start machine where
  heap :=
    { maps := fun x h p hp => by
        simp only [machine, List.mem_cons, List.not_mem_nil, or_false, or_self] at h
        subst h
        cases hp
      arrays := fun x h => by cases h
      classes := fun x h p hp => by
        simp only [machine, List.mem_cons, List.not_mem_nil, or_false] at h
        rcases h with rfl | rfl <;> cases hp }
  globals := fun p h => by
    simp only [machine, List.mem_cons, List.not_mem_nil, or_false] at h
    rcases h with rfl | rfl <;> trivial
  modules := fun p h => by cases h
  open_ := rfl

/-- The script is accepted, within the limits of the encoding, and the evaluator gives `v`. -/
def Covered (source : String) (v : Value) : Prop :=
  ∃ es t bc σ, Parser.parseSource source = .ok (.block es t) ∧ compile .script (.block es t) = .ok bc ∧ Fits bc ∧
    Src.program (world true) (fun _ _ => false) (fun _ => none) 60 (.block es t) (stateOf machine) = (.ok v, σ)

def covered (e : Expr) (v : Value) : Bool :=
  match compile .script e with
  | .error _ => false
  | .ok bc => fitsUpTo 9 bc && match (Src.program (world true) (fun _ _ => false) (fun _ => none) 60 e (stateOf machine)).1 with
    | .ok u => same u v
    | _ => false

theorem covered_sound {source : String} {e : Expr} {v : Value} {es : List Expr} {t : Option Expr} (hp : Parser.parseSource source = .ok e) (h : covered e v = true)
    (hb : e = .block es t := by rfl) :
    Covered source v := by
  subst hb
  unfold covered at h
  cases hc : compile .script (.block es t) with
  | error _ => rw [hc] at h; cases h
  | ok bc =>
    rw [hc] at h
    simp only [Bool.and_eq_true] at h
    obtain ⟨hf, h⟩ := h
    cases hr : Src.program (world true) (fun _ _ => false) (fun _ => none) 60 (.block es t) (stateOf machine) with
    | mk o σ =>
      rw [hr] at h
      cases o with
      | ok x =>
        simp only at h
        rw [same_eq h] at hr
        exact ⟨es, t, bc, σ, hp, hc, fitsUpTo_sound hf, hr⟩
      | _ => cases h

/-- Two counters with their own captured variable. -/
example : Covered "fn counter() { let mut n = 0 let f = || { n += 1 n } f } let c = counter() let d = counter() c() d() c() c()" (.int 3) :=
  covered_sound
    (e := .block [.fnDecl "counter" [] none (.block [.varDecl (.singular "n") true (.int 0) none, .varDecl (.singular "f") false
      (.anonFn [] none (.block [.assign .add (.ident "n") (.int 1)] (some (.ident "n")))) none] (some (.ident "f"))),
      .varDecl (.singular "c") false (.call (.ident "counter") []) none, .varDecl (.singular "d") false (.call (.ident
      "counter") []) none, .call (.ident "c") [], .call (.ident "d") [], .call (.ident "c") []] (some (.call (.ident "c")
      [])))
    (by kernel_rfl) (by decide +kernel)

/-- Recursion. -/
example : Covered "fn fact(n) { if n < 2 { 1 } else { n * fact(n - 1) } } fact(5)" (.int 120) :=
  covered_sound
    (e := .block [.fnDecl "fact" [⟨"n", none⟩] none (.block [] (some (.ifExpr (.binary .lessThan (.ident "n") (.int 2)) (.block
      [] (some (.int 1))) (some (.block [] (some (.binary .multiply (.ident "n") (.call (.ident "fact") [.binary .subtract
      (.ident "n") (.int 1)]))))))))] (some (.call (.ident "fact") [.int 5])))
    (by kernel_rfl) (by decide +kernel)

/-- A loop that is left. -/
example : Covered "let mut i = 0 while i < 10 { i += 1 if i == 5 { break } } i" (.int 5) :=
  covered_sound
    (e := .block [.varDecl (.singular "i") true (.int 0) none, .whileLoop (.binary .lessThan (.ident "i") (.int 10)) (.block
      [.assign .add (.ident "i") (.int 1)] (some (.ifExpr (.binary .equals (.ident "i") (.int 5)) (.block [] (some .break_))
      none)))] (some (.ident "i")))
    (by kernel_rfl) (by decide +kernel)

/-- A loop over a range, and an early return. -/
example : Covered "fn f(x) { if x > 3 { return 10 } x } let mut s = 0 for i in 0..5 { s += f(i) } s" (.int 16) :=
  covered_sound
    (e := .block [.fnDecl "f" [⟨"x", none⟩] none (.block [.ifExpr (.binary .greaterThan (.ident "x") (.int 3)) (.block [] (some
      (.return_ (some (.int 10))))) none] (some (.ident "x"))), .varDecl (.singular "s") true (.int 0) none, .forLoop "i"
      (.binary .rangeExclusive (.int 0) (.int 5)) (.block [] (some (.assign .add (.ident "s") (.call (.ident "f") [.ident
      "i"]))))] (some (.ident "s")))
    (by kernel_rfl) (by decide +kernel)

/-- Objects and lists. -/
example : Covered "let o = # { a: 1, b: [1, 2] } o.b[1] = 7 o.a + o.b[1]" (.int 8) :=
  covered_sound
    (e := .block [.varDecl (.singular "o") false (.object [("a", .int 1), ("b", .list [.int 1, .int 2])]) none, .assign .assign
      (.index (.field (.ident "o") "b") (.int 1)) (.int 7)] (some (.binary .add (.field (.ident "o") "a") (.index (.field
      (.ident "o") "b") (.int 1)))))
    (by kernel_rfl) (by decide +kernel)

/-- A class with a constructor and a method. -/
example : Covered "class P { fn new(self, x) { self.x = x } fn get(self) { self.x } } let p = P(3) p.get() + p.x" (.int 6) :=
  covered_sound
    (e := .block [(.classDecl "P" none [(.fnDecl "new" [⟨"self", none⟩, ⟨"x", none⟩] none (.block [] (some (.assign .assign
      (.field (.ident "self") "x") (.ident "x"))))), (.fnDecl "get" [⟨"self", none⟩] none (.block [] (some (.field (.ident
      "self") "x"))))]), (.varDecl (.singular "p") false (.call (.ident "P") [(.int 3)]) none)] (some (.binary .add (.call
      (.field (.ident "p") "get") []) (.field (.ident "p") "x"))))
    (by kernel_rfl) (by decide +kernel)

/-- A derived class that calls the constructor and a method of its base. -/
example : Covered "class A { fn new(self, x) { self.x = x } fn m(self) { self.x } } class B: A { fn new(self, x) { super(x) self.y = 2 } fn m(self) { super.m() + self.y } } let b = B(3) b.m()" (.int 5) :=
  covered_sound
    (e := .block [(.classDecl "A" none [(.fnDecl "new" [⟨"self", none⟩, ⟨"x", none⟩] none (.block [] (some (.assign .assign
      (.field (.ident "self") "x") (.ident "x"))))), (.fnDecl "m" [⟨"self", none⟩] none (.block [] (some (.field (.ident
      "self") "x"))))]), (.classDecl "B" (some (.ident "A")) [(.fnDecl "new" [⟨"self", none⟩, ⟨"x", none⟩] none (.block
      [(.superCall [(.ident "x")])] (some (.assign .assign (.field (.ident "self") "y") (.int 2))))), (.fnDecl "m" [⟨"self",
      none⟩] none (.block [] (some (.binary .add (.call (.superAccess "m" none) []) (.field (.ident "self") "y")))))]),
      (.varDecl (.singular "b") false (.call (.ident "B") [(.int 3)]) none)] (some (.call (.field (.ident "b") "m") [])))
    (by kernel_rfl) (by decide +kernel)

/-- A function with declared types. -/
example : Covered "fn f(x: Int) -> Int { x + 1 } f(3)" (.int 4) :=
  covered_sound
    (e := .block [(.fnDecl "f" [⟨"x", (some ⟨"Int", false⟩)⟩] (some ⟨"Int", false⟩) (.block [] (some (.binary .add (.ident "x")
      (.int 1)))))] (some (.call (.ident "f") [(.int 3)])))
    (by kernel_rfl) (by decide +kernel)

/-- An instance checked against its class, as argument, as result and by `is`. -/
example : Covered "class C { fn new(self) {} } fn f(x: C) -> C { x } let c = C() if f(c) is C { 1 } else { 2 }" (.int 1) :=
  covered_sound
    (e := .block [(.classDecl "C" none [(.fnDecl "new" [⟨"self", none⟩] none (.block [] none))]), (.fnDecl "f" [⟨"x", (some
      ⟨"C", false⟩)⟩] (some ⟨"C", false⟩) (.block [] (some (.ident "x")))), (.varDecl (.singular "c") false (.call (.ident
      "C") []) none)] (some (.ifExpr (.is (.call (.ident "f") [(.ident "c")]) ⟨"C", false⟩) (.block [] (some (.int 1)))
      (some (.block [] (some (.int 2)))))))
    (by kernel_rfl) (by decide +kernel)

/-- Null propagation. -/
example : Covered "let a = null let o = # { b: # { c: 5 } } if a?.b.c == null { o?.b.c } else { 0 }" (.int 5) :=
  covered_sound
    (e := .block [(.varDecl (.singular "a") false .null none), (.varDecl (.singular "o") false (.object [("b", (.object [("c",
      (.int 5))]))]) none)] (some (.ifExpr (.binary .equals (.field (.field (.nullProp (.ident "a")) "b") "c") .null)
      (.block [] (some (.field (.field (.nullProp (.ident "o")) "b") "c"))) (some (.block [] (some (.int 0)))))))
    (by kernel_rfl) (by decide +kernel)

/-- A loop over an iterator. -/
example : Covered "class It { fn new(self) { self.i = 0 } fn iter(self) { self } fn next(self) { self.i += 1 # { is_done: self.i > 3, value: self.i } } } let mut s = 0 for x in It() { s += x } s" (.int 6) :=
  covered_sound
    (e := .block [(.classDecl "It" none [(.fnDecl "new" [⟨"self", none⟩] none (.block [] (some (.assign .assign (.field (.ident
      "self") "i") (.int 0))))), (.fnDecl "iter" [⟨"self", none⟩] none (.block [] (some (.ident "self")))), (.fnDecl "next"
      [⟨"self", none⟩] none (.block [(.assign .add (.field (.ident "self") "i") (.int 1))] (some (.object [("is_done",
      (.binary .greaterThan (.field (.ident "self") "i") (.int 3))), ("value", (.field (.ident "self") "i"))]))))]),
      (.varDecl (.singular "s") true (.int 0) none), (.forLoop "x" (.call (.ident "It") []) (.block [] (some (.assign .add
      (.ident "s") (.ident "x")))))] (some (.ident "s")))
    (by kernel_rfl) (by decide +kernel)

/-- An overloaded operator and a static method. -/
example : Covered "class C { fn new(self) { self.i = 0 } op +(self, y) { self.i + y } fn make() { C() } } C.make() + 4" (.int 4) :=
  covered_sound
    (e := .block [(.classDecl "C" none [(.fnDecl "new" [⟨"self", none⟩] none (.block [] (some (.assign .assign (.field (.ident
      "self") "i") (.int 0))))), (.opDecl .add [⟨"self", none⟩, ⟨"y", none⟩] none (.block [] (some (.binary .add (.field
      (.ident "self") "i") (.ident "y"))))), (.fnDecl "make" [] none (.block [] (some (.call (.ident "C") []))))])] (some
      (.binary .add (.call (.field (.ident "C") "make") []) (.int 4))))
    (by kernel_rfl) (by decide +kernel)

/-- The script is accepted, within the limits of the encoding, and evaluation fails. -/
def failing (e : Expr) : Bool :=
  match compile .script e with
  | .error _ => false
  | .ok bc => fitsUpTo 9 bc && match (Src.program (world true) (fun _ _ => false) (fun _ => none) 60 e (stateOf machine)).1 with
    | .err _ => true
    | _ => false

/-- The script is accepted, within the limits of the encoding, and evaluation does not end. -/
def endless (e : Expr) : Bool :=
  match compile .script e with
  | .error _ => false
  | .ok bc => fitsUpTo 9 bc && match (Src.program (world true) (fun _ _ => false) (fun _ => none) 60 e (stateOf machine)).1 with
    | .timeout => true
    | _ => false

/-- A runtime error: an integer is called. -/
example : ∃ e, Parser.parseSource "let x = 5 x()" = .ok e ∧ failing e = true :=
  ⟨.block [.varDecl (.singular "x") false (.int 5) none] (some (.call (.ident "x") [])), by kernel_rfl, by decide +kernel⟩

/-- A failed type check. -/
example : ∃ e, Parser.parseSource "fn f(x: Int) { x } f(null)" = .ok e ∧ failing e = true :=
  ⟨.block [.fnDecl "f" [⟨"x", some ⟨"Int", false⟩⟩] none (.block [] (some (.ident "x")))] (some (.call (.ident "f") [.null])),
    by kernel_rfl, by decide +kernel⟩

/-- A loop without an end. -/
example : ∃ e, Parser.parseSource "loop { }" = .ok e ∧ endless e = true :=
  ⟨.block [] (some (.loop (.block [] none))), by kernel_rfl, by decide +kernel⟩

end Dice.Sim
