import Verif.SimCall
import Verif.SlotProps

/-!
# Modules follow the evaluator
-/

namespace Dice.Sim

open Src (SEnv State Out S Jump)

section
variable {C : Cx} {K : Nat → Prop} {W W1 W2 : Wd} {ts ts1 : List Value} {σ σ1 : State} {m m1 : VM} {w : World} {N : Nat} {R : Prop}
  {g g1 g2 g' : Env} {c : Code} {call : Src.Calls} {n n1 : Nat}

/-- The sources are those of the modules that the machine loads. -/
def SourceRel (w : World) (src : Src.Sources) : Prop :=
  ∀ name root, src name = some root → ∃ es t bc, root = .block es t ∧ w.loader name = .ok bc ∧ compile .module root = .ok bc ∧
    Fits bc ∧ avoids nameExport false root = true

theorem SourceRel.none : SourceRel w fun _ => none := fun _ _ h => by cases h

/-- After a module: the object of its exports is on the stack and its variables are gone. -/
def Left' (C : Cx) (W : Wd) (n : Nat) (v : Value) (σ' : State) (m' : VM) : Prop :=
  ∃ W', W.Le n W' ∧ W'.seg = [] ∧ n ≤ σ'.store.length ∧ St C (fun _ => False) W' [v] σ' m'

/-- The code of a module. -/
theorem module_sim (hc : CallSpec w N call) (hload : LoadSpec w N call) {es : List Expr} {t : Option Expr} {slot : Nat} {fn : Ctx}
    {v : ScopeVar} {bc : Bytecode} {o : Value}
    (h0 : Env.addLocal nameExport (.initialized false) [{ kind := .module }] = some (slot, g))
    (hg : Gen g (.expr (.block es t)) c [fn]) (hv : Env.lookup nameExport [fn] = some v)
    (code : FnCode fn (.block [c, .op .pop, .num .loadLocal v.slot]) bc) (fits : Fits bc)
    (ha : avoids nameExport false (.block es t) = true) (hsegs : C.segs = []) (hrole : C.role = .plain none)
    (room : C.f.start + bc.slotCount ≤ C.f.stop) (hw : W.seg = []) (ho : VRel W.kap o (m.mem C.f.start))
    (h : St C (fun _ => False) W [] σ m) :
    Sim N True (exec w C.f C.ups (.block [c, .op .pop, .num .loadLocal v.slot])) m (Src.module w call N (.block es t) o σ)
      (Norm (Left' C W σ.store.length)) NoJump := by
  have inv0 : StackInv [({ kind := .module } : Ctx)] := ⟨List.Pairwise.nil, scopeInv_new _, by simp, trivial⟩
  have good0 : Good C [{ kind := .module }] := ⟨inv0, ⟨by simp, trivial⟩, by rw [hsegs]; exact .nil, _, rfl, by rw [hrole]; rfl⟩
  have hslot : slot = 0 := by cases h0; rfl
  have good1 := good0.step (stepRel.addLocal h0)
  have good2 := good1.gen hg
  have own := (hg.spares ha rfl good1.inv good1.flags (Env.Own.new h0)).1
  have hgv : g.view = [[(nameExport, 0)]] := by cases h0; rfl
  have hfv : Env.view [fn] = g.view := by
    cases hg with
    | chain he => cases he
    | blockExpr h =>
      cases h with
      | block h1 hs h hp => exact (Widens.scope h1 (widensRel.trans (widensRel.scanDecls hs) h.widens) hp good1.inv).2.1
  have hlen : (Env.vars [fn]).length = 1 := by rw [Env.vars_view, hfv, hgv]; rfl
  have hd2 : Dest C (fun _ => False) [fn] := by
    cases fits with
    | mk _ hslots hcapt _ =>
    refine ⟨?_, ?_, ?_, ?_, ?_⟩
    · rintro _ _ i d l ⟨⟩ h1 h2
      rw [hsegs] at h2
      cases d <;> cases h2
    · intro s hs
      have h1 := Env.flagged_lt good2.inv hs
      rw [hlen] at h1
      obtain rfl : s = 0 := by omega
      have h2 := own.not_flagged good2.inv
      rw [hslot] at h2
      exact h2 hs
    · show fn.scopes.slotCount ≤ 256
      rw [← code.slots]; exact hslots
    · rintro _ _ ⟨⟩
      rw [← code.captured]; exact hcapt
    · show C.f.start + fn.scopes.slotCount ≤ C.f.stop
      rw [← code.slots]; exact room
  have hfit : ∀ b, c.HasFn b → Fits b := by
    intro b hb
    obtain ⟨nm, i, hm⟩ := (code.layout fits).fn_mem (f := b) (by simp [Code.block, Code.HasFn, hb])
    cases fits with
    | mk _ _ _ hfns => exact hfns b nm i hm
  have hd1 := hd2.gen hg good1.inv
  obtain ⟨-, k2, k3, k4, -⟩ := addLocal_slot (W := W) inv0 h0 (by rw [hw]; rfl) hd1
  have hout : C.out = [] := by unfold Cx.out; rw [hsegs]; rfl
  have hslot' : slot = ([] : SEnv).length := hslot
  have h1 := h.alloc (o := some o) Src.exports (by rw [hw, ← hslot']; exact k2) (by rintro _ ⟨⟩; rw [hw]; exact ho)
  have hsim : FollowsE w N g (Src.eval w call · N false (.block es t)) c [fn] :=
    (show Follows w call N g (.expr (.block es t)) c [fn] from gen_follows hc hload hg).1 (.inl (by cases h0; rfl))
  unfold Src.module
  refine Sim.operand (R' := True)
    (J' := Jmp C (fun _ => False) { W with seg := [(Src.exports, σ.store.length)] } [] (σ.store ++ [some o]).length) ?_
  show Sim N True _ m ((Src.eval w call (.plain none) N false (.block es t) [(Src.exports, σ.store.length)] >>=
    fun _ => Src.readLoc σ.store.length) { σ with store := σ.store ++ [some o] }) _ _
  have hroot := hsim (C := C) (R := True) (ts := []) (W := { W with seg := (Src.exports, σ.store.length) :: W.seg })
    (σ := { σ with store := σ.store ++ [some o] }) (m := m)
    ⟨good1, hd2, hfit, k4 _, h1, fun _ => ⟨rfl, by cases h0; rfl⟩⟩
  simp only [hrole, hout, hw, List.append_nil] at hroot
  refine Sim.seq hroot ?_
  rintro ⟨r, ρ⟩ σ1 m1 ⟨W1, q1, q2, rfl, q4, q5⟩
  have hs1 : W1.seg = [(Src.exports, σ.store.length)] := q1.seg_eq (by rw [q4.length, hlen]; rfl)
  have hmu : W1.mu σ.store.length = none := by
    cases hm : W1.mu σ.store.length with
    | none => rfl
    | some a => exact (q5.marked 0 σ.store.length (by rw [hs1]; rfl) (by rw [hm]; simp)).elim
  refine Sim.step q5.popOp fun m2 h2 => ?_
  have hvs : v.slot = 0 := by
    have := q4.length
    obtain ⟨l, e1, e2⟩ := q4.lookup_some good2.inv hv
    have := slotLoc_lt e2
    rw [hs1] at this
    simp at this
    exact this
  rw [hvs]
  rw [← S.bind_pure_eq (Src.readLoc _)]
  refine Sim.seqI (r := fun v => v) (h2.loadLocalOp (s := 0) (l := σ.store.length) (by rw [hs1]; rfl) (by omega)) ?_
  intro v m3 h3
  refine .nop ⟨rfl, { W1 with seg := [] }, ?_, rfl, ?_, h3.leave (ext := W1.seg) (seg := []) (by simp) ?_ fun _ _ h => h⟩
  · have := ((W.le_alloc Src.exports σ.store.length σ.store.length (Nat.le_refl _)).trans (n' := σ.store.length + 1) (by omega) (by simpa [hw] using q1)).drop
    rw [hw] at this
    exact this
  · simp only [List.length_append, List.length_singleton] at q2
    omega
  · intro x l hx
    rw [hs1] at hx
    cases List.mem_singleton.1 hx
    exact hmu

/-- Running a module on the machine. -/
def runX (w : World) (bc : Bytecode) (e : Value) : X := fun n => runModule w n bc e >>= fun v => Dice.push v >>= fun _ => pure (.normal, n)

/-- The machine at the start of a module. -/
def begun (bc : Bytecode) (e : Value) (m : VM) : VM := { m with mem := upd m.mem m.ptr e, ptr := m.ptr + bc.slotCount }

/-- The run of a module, in terms of its code. -/
theorem module_cases {bc : Bytecode} {e : Value}
    (hrun : ∀ (f : Frame) (ups : Option (List Nat)) (n : Nat), loop w n bc f ups 0 = exec w f ups c n >>= endRun) :
    OverX (runX w bc e) m ∨ (∀ n, n < 2 → (runX w bc e n m).1 = .timeout) ∧
    ∀ n, runX w bc e (n + 2) m = (exec w ⟨m.ptr, m.ptr + bc.slotCount⟩ none c n >>= fun r =>
      finishCall w ⟨m.ptr, m.ptr + bc.slotCount⟩ (m.ptr + bc.slotCount) r >>= fun _ => pure (.normal, n + 2)) (begun bc e m) := by
  by_cases ho : w.debug = true ∧ ¬ m.ptr + bc.slotCount < maxStack
  · refine .inl ⟨"Stack Overflowed", { m with ptr := m.ptr + bc.slotCount }, ⟨1, ?_⟩, by show maxStack ≤ m.ptr + _; omega⟩
    unfold runX
    rw [runModule, bind_panic (bind_panic (by unfold reserveSlots; exact if_pos ho))]
    exact ⟨rfl, rfl⟩
  have h1 : reserveSlots w bc.slotCount m = (.ok ⟨m.ptr, m.ptr + bc.slotCount⟩, { m with ptr := m.ptr + bc.slotCount }) := by
    unfold reserveSlots; exact if_neg ho
  by_cases hm : m.ptr < maxStack
  · have h2 : memSet m.ptr e { m with ptr := m.ptr + bc.slotCount } = (.ok (), begun bc e m) := by
      unfold memSet; exact if_pos hm
    refine .inr ⟨?_, ?_⟩
    · intro n hn
      match n, hn with
      | 0, _ => unfold runX; rw [runModule, bind_timeout (x := V.timeout) rfl]
      | 1, _ =>
        unfold runX
        rw [runModule, bind_timeout ((bind_ok h1).trans ((bind_ok h2).trans (bind_timeout (m' := begun bc e m) (by rw [execute]; rfl))))]
    · intro n
      unfold runX
      rw [runModule, bind_assoc]
      refine (bind_ok h1).trans ?_
      rw [bind_assoc]
      refine (bind_ok h2).trans ?_
      rw [execute, bind_assoc, bind_assoc]
      refine (bind_ok (x := V.get) rfl).trans ?_
      rw [hrun]
      simp only [finishCall, bind_assoc, pure_bind]
      rfl
  · refine .inl ⟨"index out of bounds", { m with ptr := m.ptr + bc.slotCount }, ⟨1, ?_⟩, by show maxStack ≤ m.ptr + _; omega⟩
    unfold runX
    rw [runModule, bind_panic ((bind_ok h1).trans (bind_panic (by unfold memSet; exact if_neg hm)))]
    exact ⟨rfl, rfl⟩

/-- The run of a module. -/
theorem runModule_sim (hc : CallSpec w N call) (hload : LoadSpec w N call) {es : List Expr} {t : Option Expr} {bc : Bytecode} {o : Value}
    (hcomp : compile .module (.block es t) = .ok bc) (fits : Fits bc) (ha : avoids nameExport false (.block es t) = true)
    (ho : VRel W.kap o o) (h : St C K W ts σ m) :
    Sim (N + 1) True (runX w bc o) m (Src.module w call N (.block es t) o σ) (Norm (Called C K W ts σ.store.length)) NoJump := by
  obtain ⟨fn, c0, hp, code⟩ := compile_gen hcomp
  have hsc := hp.scoped
  cases hp with
  | other hk => exact absurd rfl hk
  | @module _ g0 slot _ c v h0 hg hv =>
  have hslots : 0 < bc.slotCount := compile_module_slots hcomp
  rcases module_cases (w := w) (m := m) (e := o) (fun f ups n => loop_scoped (code.layout fits) hsc n) with hov | ⟨hlate, hcall⟩
  · exact .inl hov
  have hst : St (calleeCx C W m ⟨m.ptr, m.ptr + bc.slotCount⟩ none [] (fun _ => none) (.plain none)) (fun _ => False) { W with seg := [] } [] σ (begun bc o m) :=
    St.enter h (by show C.f.stop ≤ m.ptr; have := h.ptr_eq; omega) (by show m.ptr ≤ m.ptr + _; omega) (fun p hp => upd_other (by have : p < m.ptr := hp; omega))
      (fun _ _ h => by cases h)
  have hbody := module_sim (W := { W with seg := [] }) (o := o) hc hload h0 hg hv code fits ha rfl rfl (Nat.le_refl _) rfl
    (by show VRel W.kap o (upd m.mem m.ptr o m.ptr); rw [upd_same]; exact ho) hst
  have ends : ∀ {r m'}, Ends (exec w ⟨m.ptr, m.ptr + bc.slotCount⟩ none (.block [c, .op .pop, .num .loadLocal v.slot])) (begun bc o m) r m' →
      (∀ s, r ≠ .done s) → Ends (runX w bc o) m r m' := by
    rintro r m' ⟨n, h1, h2⟩ hd
    refine ⟨n + 2, ?_⟩
    rw [hcall]
    cases hx : exec w ⟨m.ptr, m.ptr + bc.slotCount⟩ none (.block [c, .op .pop, .num .loadLocal v.slot]) n (begun bc o m) with
    | mk o m2 =>
      rw [hx] at h1 h2
      simp only at h2
      subst h2
      cases o with
      | ok a => cases h1; exact absurd rfl (hd _)
      | err e => rw [bind_err hx]; exact ⟨h1, rfl⟩
      | panic s => rw [bind_panic hx]; exact ⟨h1, rfl⟩
      | timeout => cases h1
  rcases hbody with ⟨s, m', h1, h2⟩ | hbody
  · exact .inl ⟨s, m', ends h1 (by simp), h2⟩
  · refine .inr ?_
    cases hout : Src.module w call N (.block es t) o σ with
    | mk r σ' =>
      rw [hout] at hbody
      cases r with
      | ok r =>
        obtain ⟨s, m', ⟨n, h1, h2⟩, rfl, W', h3, h4, h5, h6⟩ := hbody
        cases hx : exec w ⟨m.ptr, m.ptr + bc.slotCount⟩ none (.block [c, .op .pop, .num .loadLocal v.slot]) n (begun bc o m) with
        | mk q m2 =>
          change (exec w ⟨m.ptr, m.ptr + bc.slotCount⟩ none (.block [c, .op .pop, .num .loadLocal v.slot]) n (begun bc o m)).1.res = _ at h1
          change (exec w ⟨m.ptr, m.ptr + bc.slotCount⟩ none (.block [c, .op .pop, .num .loadLocal v.slot]) n (begun bc o m)).2 = _ at h2
          rw [hx] at h1 h2
          simp only at h2
          subst h2
          cases q with
          | err | panic | timeout => cases h1
          | ok a =>
            obtain ⟨a, j⟩ := a
            cases h1
            have hx' : exec w ⟨m.ptr, m.ptr + bc.slotCount⟩ none (.block [c, .op .pop, .num .loadLocal v.slot]) (n + 1) (begun bc o m) = (.ok (.normal, j + 1), m2) := by
              rcases exec_later w ⟨m.ptr, m.ptr + bc.slotCount⟩ none (.block [c, .op .pop, .num .loadLocal v.slot]) n 1 (begun bc o m) with h | h
              · rw [hx] at h; cases h
              · rw [hx] at h; exact h
            have hp' := h6.ptr_eq
            obtain ⟨-, q2, -⟩ := h6.rest.temps.uncons
            obtain ⟨mem, e1, e2, e3⟩ := finishCall_ok (w := w) (f := ⟨m.ptr, m.ptr + bc.slotCount⟩) (m := m2) (r := (.normal, j + 1)) rfl
              (u := m2.mem (m.ptr + bc.slotCount)) hp' rfl (h6.rest.room (by simp)) h6.rest.wide rfl
            refine ⟨.normal, _, ⟨n + 1 + 2, ?_⟩, rfl, St.resume (mem := mem) h h.rest.temps ?_ h3 h4 h5 h6 e2 ?_⟩
            · rw [hcall, bind_ok hx', bind_ok e1]
              exact ⟨rfl, rfl⟩
            · show C.f.stop ≤ m.ptr
              have := h.ptr_eq; omega
            · rw [e3]
              rw [hp', List.length_singleton, Nat.add_sub_cancel] at q2
              exact q2
      | jump j =>
        intro hj
        obtain ⟨m', -, h2⟩ := hbody (by cases j <;> trivial)
        exact h2.elim
      | err e => obtain ⟨m', h1⟩ := hbody; exact ⟨m', ends h1 (by simp)⟩
      | abort => obtain ⟨s, m', h1⟩ := hbody; exact ⟨s, m', ends h1 (by simp)⟩
      | stuck => trivial
      | timeout =>
        intro n hn
        by_cases h3 : n < 2
        · exact hlate n h3
        · obtain ⟨k, rfl⟩ : ∃ k, n = k + 2 := ⟨n - 2, by omega⟩
          have := hbody k (by omega)
          rw [hcall]
          cases hx : exec w ⟨m.ptr, m.ptr + bc.slotCount⟩ none (.block [c, .op .pop, .num .loadLocal v.slot]) k (begun bc o m) with
          | mk q m2 =>
            change (exec w ⟨m.ptr, m.ptr + bc.slotCount⟩ none (.block [c, .op .pop, .num .loadLocal v.slot]) k (begun bc o m)).1 = _ at this
            rw [hx] at this
            simp only at this
            subst this
            rw [bind_timeout hx]

/-- Importing a module. -/
theorem load_sim {src : Src.Sources} (hs : SourceRel w src) (hc : CallSpec w N call) (hload : LoadSpec w N call) (name : String)
    (h : St C K W ts σ m) :
    Sim (N + 1) True (loadX w name) m (Src.load w src call N name σ) (Norm (Called C K W ts σ.store.length)) NoJump := by
  have hget := h.inv.modules.get name
  unfold Src.load
  cases hg : σ.modules.get name with
  | some v =>
    rw [hg] at hget
    cases hu : m.modules.get name with
    | none => rw [hu] at hget; cases hget
    | some u =>
      rw [hu] at hget
      cases hget with
      | some hv =>
      have he : ∀ n, loadX w name n m = (Dice.push u >>= fun _ => pure (.normal, n)) m := by
        intro n
        unfold loadX loadModule
        rw [bind_assoc]
        refine bind_ok ?_
        unfold moduleValue
        rw [hu]
      rcases h.push hv with hp | ⟨_, m', hp, h'⟩
      · obtain ⟨s, m', h1, h2⟩ := hp
        exact .inl ⟨s, m', ⟨0, by rw [he, bind_panic h1]; exact ⟨rfl, rfl⟩⟩, h2⟩
      · exact .inr ⟨.normal, m', ⟨0, by rw [he, bind_ok hp]; exact ⟨rfl, rfl⟩⟩, rfl, .same (Nat.le_refl _) h'⟩
  | none =>
    rw [hg] at hget
    obtain ⟨e1, e2, e3⟩ := h.inv.heap.newObject w.moduleClass
    have hu : m.modules.get name = none := by
      cases hu : m.modules.get name with
      | none => rfl
      | some u => rw [hu] at hget; cases hget
    have h' : St C K W ts { σ with heap := (σ.heap.newObject w.moduleClass).2, modules := σ.modules.insert name (σ.heap.newObject w.moduleClass).1 }
        { m with heap := (m.heap.newObject w.moduleClass).2, modules := m.modules.insert name (m.heap.newObject w.moduleClass).1 } :=
      { inv := (h.inv.data e3).module (h.inv.modules.insert name (e1 ▸ .plain e2))
        rest := h.rest.other rfl rfl rfl
        marked := h.marked
        fits := h.fits }
    cases hl : w.loader name with
    | error e =>
      have he : loadX w name 0 m = (.err e, { m with heap := (m.heap.newObject w.moduleClass).2, modules := m.modules.insert name (m.heap.newObject w.moduleClass).1 }) := by
        unfold loadX loadModule
        refine bind_err (bind_err ?_)
        unfold moduleValue
        rw [hu]
        simp only [hl]
      exact .inr ⟨_, ⟨0, by rw [he]; exact ⟨rfl, rfl⟩⟩⟩
    | ok bc =>
      dsimp only
      cases hsrc : src name with
      | none => exact .inr trivial
      | some root =>
        obtain ⟨es, t, bc', rfl, k1, k2, k3, k4⟩ := hs name root hsrc
        rw [hl] at k1
        cases k1
        have := runModule_sim (o := (σ.heap.newObject w.moduleClass).1) hc hload k2 k3 k4 (.plain e2) h'
        refine .change (fun n => ?_) this
        unfold loadX loadModule runX
        rw [bind_assoc]
        refine bind_at ?_
        unfold moduleValue
        rw [hu]
        simp only [hl, e1]
        rfl

/-- Calls and imports of the machine follow those of the evaluator. -/
theorem callSpec {known : Src.Known} {src : Src.Sources} (hn : NativeRel w known) (hs : SourceRel w src) :
    ∀ n, CallSpec w n (Src.calls w known src n) ∧ LoadSpec w n (Src.calls w known src n)
  | 0 => by
    constructor
    · intro C K W ts σ m f vs hl h
      exact .inr fun n hn => absurd hn (by omega)
    · intro C K W ts σ m name h
      exact .inr fun n hn => absurd hn (by omega)
  | n + 1 => by
    obtain ⟨h1, h2⟩ := callSpec hn hs n
    refine ⟨?_, ?_⟩
    · intro C K W ts σ m f vs hl h
      exact apply_sim hn h1 h2 hl h
    · intro C K W ts σ m name h
      exact load_sim hs h1 h2 name h

end

end Dice.Sim
