import Verif.SimClass
import Verif.GenShape

/-!
# Imports and exports follow the evaluator
-/

namespace Dice.Sim

open Src (SEnv State Out S Jump)

section
variable {C : Cx} {K : Nat → Prop} {W W1 : Wd} {ts ts1 : List Value} {σ σ1 : State} {m m1 : VM} {w : World} {N : Nat} {R : Prop}
  {g g1 g2 g3 g' : Env} {c c1 c2 c3 : Code} {call : Src.Calls} {n : Nat} {J : Jump → State → VM → Prop}

/-- An import on the machine. -/
def loadX (w : World) (name : String) : X := fun n => loadModule w (callsAt w n) name >>= fun _ => pure (.normal, n)

/-- Imports of the machine follow those of the evaluator. -/
def LoadSpec (w : World) (N : Nat) (call : Src.Calls) : Prop :=
  ∀ {C : Cx} {K : Nat → Prop} {W : Wd} {ts : List Value} {σ : State} {m : VM} (name : String), St C K W ts σ m →
    Sim N True (loadX w name) m (call.load name σ) (Norm (Called C K W ts σ.store.length)) NoJump

theorem St.loadOp (hl : LoadSpec w N call) (name : String) (h : St C K W ts σ m) :
    Sim N R (exec w C.f C.ups (.sym .loadModule name)) m (call.load name σ) (Norm (Done C K W ts σ.store.length)) J := by
  refine .tick (.change (m1 := m) (y := loadX w name) ?_ ((hl name h).free.post fun _ _ _ _ h => ⟨h.1, h.2.done⟩))
  intro n
  unfold istep loadX
  rw [show step w (callsAt w n) (Instr.sym .loadModule name).operands C.f C.ups (Instr.sym .loadModule name).opcode 0 =
    (symbolOperand (Instr.sym .loadModule name).operands 0 >>= fun i => loadModule w (callsAt w n) i >>= fun _ => pure (Next.goto (0 + 1))) from rfl]
  simp only [bind_assoc, pure_bind]
  rfl

theorem case_importItems (hc : LoadSpec w N call) {xs : List String} {path : String} {ls : List (String × Nat)}
    (hl : g.addLocals xs = some (ls, g')) :
    FollowsE w N g (Src.eval w call · N false (.importDecl none xs path)) (.seq (.sym .loadModule path) (fieldLocalsCode ls)) g' := by
  intro C K W ts R σ m h
  try dsimp only
  simp only [Src.eval]
  refine Sim.subV (r := fun v => v) (h.st.loadOp hc path) fun v W1 σ1 m1 h1 h2 h3 h4 => ?_
  rw [← h2]
  refine (bindFields_sim hl h.good.inv h.dest (h2 ▸ h.seg) h4 _).thenE ?_
  rintro ρ σ2 s m2 ⟨hs, h5⟩
  exact ⟨_, _, rfl, hs, h5.back h1 h3⟩

theorem case_importModule (hc : LoadSpec w N call) {x : String} {xs : List String} {path : String} {ls : List (String × Nat)} {slot : Nat}
    (hl : g.addLocals xs = some (ls, g1)) (hm : g1.addLocal x (.initialized false) = some (slot, g')) :
    FollowsE w N g (Src.eval w call · N false (.importDecl (some x) xs path))
      (.block [.sym .loadModule path, fieldLocalsCode ls, .num .storeLocal slot]) g' := by
  intro C K W ts R σ m h
  try dsimp only
  simp only [Src.eval]
  have good1 := h.good.step (stepRel.addLocals hl)
  have hm0 : ∃ seg : SEnv, Matches g1 seg := by
    refine ⟨g1.vars.map fun x => (x.1, 0), ?_⟩
    unfold Matches
    rw [List.map_map]; rfl
  obtain ⟨seg0, hm0⟩ := hm0
  have hd1 := (addLocal_slot (W := { W with seg := seg0 }) good1.inv hm hm0 h.dest).2.2.2.2
  refine Sim.subV (r := fun v => v) (h.st.loadOp hc path) fun v W1 σ1 m1 h1 h2 h3 h4 => ?_
  rw [← h2]
  refine Sim.seq (bindFields_sim hl h.good.inv hd1 (h2 ▸ h.seg) h4 _) ?_
  rintro ρ σ2 m2 ⟨W2, l1, l2, rfl, l4, l5⟩
  obtain ⟨rfl, k2, k3, k4, -⟩ := addLocal_slot good1.inv hm l4 h.dest
  refine Sim.step (l5.storeLocalOp (Nat.le_refl _) k2 k3) fun m3 h5 => .nop ?_
  have h6 := h5.1.alloc (o := some v) x k2 (by rintro _ ⟨⟩; exact h5.2)
  refine ⟨rfl, _, (h1.trans h3 l1).trans (Nat.le_trans h3 l2) (W2.le_alloc x _ _ (Nat.le_refl _)), ?_, rfl, k4 _, h6⟩
  simp only [List.length_append]
  omega

theorem exported_name (e : Expr) : Src.exported e = exportName e := by
  cases e with
  | varDecl k => cases k <;> rfl
  | _ => rfl

theorem case_exportDecl {e : Expr} {v : ScopeVar} {x : String} (hv : g.lookup nameExport = some v) (hg : Gen g (.expr e) c g')
    (hn : exportName e = some x) (ih : FollowsE w N g (Src.eval w call · N false e) c g') :
    FollowsE w N g (Src.eval w call · N false (.exportDecl e)) (.block [.num .loadLocal v.slot, c, .sym .storeField x]) g' := by
  intro C K W ts R σ m h
  try dsimp only
  obtain ⟨l, hl, hs⟩ := h.local hv
  have hb := h.slot256 hg hs
  have hl : (W.seg ++ C.out).lookup Src.exports = some l := hl
  simp only [Src.eval, hl, exported_name, hn]
  refine Sim.seqI (r := fun v => v) (h.st.loadLocalOp hs hb) fun a m1 h1 => ?_
  refine Sim.subOp (ih (h.with (by hasfn) h1)) fun u W2 σ2 m2 k1 k2 k3 k4 => .last ?_
  exact Sim.finish k1 k2 k3 (r := fun _ => u) (Sim.op2 (k4.storeFieldOp x))

end

end Dice.Sim
