import Verif.GenProps
import Verif.StructProps

/-!
# Whole programs

What the compiler produces for a script or a module, and what running it does.
-/

namespace Dice

/-- The structured code of a whole program: a module additionally loads the object it exports. -/
inductive ProgGen : CompilerKind → Expr → Ctx → Code → Prop where
  | module {root : Expr} {g : Env} {slot : Nat} {fn : Ctx} {c : Code} {v : ScopeVar}
      (h0 : Env.addLocal nameExport (.initialized false) [{ kind := .module }] = some (slot, g))
      (h : Gen g (.expr root) c [fn]) (hv : Env.lookup nameExport [fn] = some v) :
      ProgGen .module root fn (.block [c, .op .pop, .num .loadLocal v.slot])
  | other {kind : CompilerKind} {root : Expr} {fn : Ctx} {c : Code} (hk : kind ≠ .module)
      (h : Gen [{ kind }] (.expr root) c [fn]) : ProgGen kind root fn c

theorem inv_init {kind : CompilerKind} : Inv { stack := [{ kind }] } := by
  intro c hc
  have hc : c = { kind } := by simpa using hc
  subst hc
  refine ⟨?_, ?_, ?_⟩
  · intro x hx
    simp [Ctx.skels, ScopeStack.new, pending, ScopeContext.skel] at hx
  · intro sk hsk _
    simp only [Ctx.skels, ScopeStack.new, List.map_cons, List.map_nil, List.mem_singleton] at hsk
    subst hsk
    rfl
  · intro code name id h
    cases h

/-- The end of a compilation. -/
theorem run_finish {kind : CompilerKind} {s' s'' : CState} {c : Code} {fn : Ctx}
    (r : Run { stack := [{ kind }] } s' [] c) (h : popCtx s' = .ok (fn, s'')) :
    s'.env = [fn.erase] ∧ FnCode fn.erase c fn.finish := by
  obtain ⟨E, X, ⟨⟨y, resty, x2, rest2, hs1, hs2, he, hq⟩, hn, hi2⟩, hE, hX⟩ := r
  cases hs1
  unfold popCtx at h
  rw [hs2] at h
  cases h
  have hk : ({ stack := [{ kind }] } : CState).sk = [⟨.block, none, [], 0, []⟩] := rfl
  rw [hk] at he hE hX
  have hE0 : E = [] := hE rfl
  have hX0 : X = [] := hX rfl
  subst hE0
  subst hX0
  cases hq
  refine ⟨by simp [CState.env, hs2], ⟨rfl, rfl, fun hf => ?_, fun code name id h => ((hi2 _ (by rw [hs2]; simp)).ids code name id h).2⟩⟩
  exact he.lay fn.finish [] 0 0 0 ⟨hf, Nat.le_refl _, fun _ _ _ => rfl, List.prefix_rfl⟩ (fun h hh => nomatch hh)
    (fun h hh => by simp at hh) (fun h hh => nomatch hh) (fun j hj => by simp [Dice.loopEntry, List.find?_cons] at hj)

/-- The compiler follows the judgement on whole programs. -/
theorem compile_gen {kind : CompilerKind} {root : Expr} {bc : Bytecode} (h : compile kind root = .ok bc) :
    ∃ fn c, ProgGen kind root fn c ∧ FnCode fn c bc := by
  unfold compile at h
  cases hm : compileM kind root { stack := [{ kind }] } with
  | error e => rw [hm] at h; cases h
  | ok r =>
    obtain ⟨b, s'⟩ := r
    rw [hm] at h
    cases h
    have other : kind ≠ .module → (do visit root; let c ← popCtx; pure c.finish : M Bytecode) { stack := [{ kind }] } =
        .ok (bc, s') → ∃ fn c, ProgGen kind root fn c ∧ FnCode fn c bc := by
      intro hk h
      obtain ⟨_, s1, h1, h2⟩ := M.bind_inv h
      obtain ⟨fn, s2, h3, h4⟩ := M.bind_inv h2
      obtain ⟨rfl, -⟩ := M.pure_inv h4
      obtain ⟨c, g, r⟩ := visit_sp root _ _ inv_init ⟨_, _, rfl⟩ h1
      obtain ⟨e, hc⟩ := run_finish r h3
      rw [e] at g
      exact ⟨_, c, .other hk g, hc⟩
    unfold compileM compileEnd at hm
    cases kind with
    | module =>
      simp only at hm
      obtain ⟨slot, s0, h0, h1⟩ := M.bind_inv hm
      obtain ⟨_, s1, h2, h3⟩ := M.bind_inv h1
      obtain ⟨r, s2, h4, h5⟩ := M.bind_inv h3
      obtain ⟨rfl, hl, -⟩ := lookupLocal_inv h4
      obtain ⟨r0, e0⟩ := addLocal_run inv_init h0
      obtain ⟨c, g, r1⟩ := visit_sp root _ _ r0.inv r0.stack' h2
      cases r with
      | none =>
        obtain ⟨_, _, h6, -⟩ := M.bind_inv h5
        exact (M.fail_inv h6).elim
      | some v =>
        obtain ⟨_, s3, h6, h7⟩ := M.bind_inv h5
        obtain ⟨_, s4, h8, h9⟩ := M.bind_inv h7
        obtain ⟨fn, s5, h10, h11⟩ := M.bind_inv h9
        obtain ⟨rfl, -⟩ := M.pure_inv h11
        obtain ⟨r2, e2⟩ := emit_run r1.inv h6 rfl
        obtain ⟨r3, e3⟩ := emit1_run r2.inv h8 rfl
        obtain ⟨e, hc⟩ := run_finish (r0.after (r1.seq (r2.seq r3.done))) h10
        rw [e3, e2] at e
        rw [e] at g hl
        exact ⟨_, _, .module e0 g hl, hc⟩
    | _ => exact other (by simp) hm

end Dice
