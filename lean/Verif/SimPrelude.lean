import Verif.SimNative
import Verif.SimSession
import Verif.Prelude

/-!
# The prelude in the evaluator

The reference evaluator loads the prelude like the runtime does, so that the programs of the command line tool are covered,
with their ranges, results and the operators of the prelude.
-/

namespace Dice

open Sim Natives
open Src (SEnv State Out S Jump)

/-- Loading the prelude in the evaluator: the module runs and its exports become globals, except where there is one of
that name (runtime.rs:152-165). -/
def Src.loadPrelude (w : World) (known : Src.Known) (src : Src.Sources) (n : Nat) (path : String) : S Unit := fun σ =>
  match src path with
  | none => (.stuck, σ)
  | some root =>
    let r := σ.heap.newObject w.moduleClass
    match Src.module w (Src.calls w known src n) n root r.1 { σ with heap := r.2, modules := σ.modules.insert path r.1 } with
    | (.ok v, σ) =>
      match σ.heap.asObject v with
      | some o =>
        let fields := (σ.heap.maps[o.fields]?).getD []
        (.ok (), { σ with globals := (keys fields).foldl (addGlobal fields) σ.globals })
      | none => (.err .invalidObject, σ)
    | (_, σ) => (.stuck, σ)

theorem Sim.MapRel.addGlobal {κ : List Value} {fields fields' globals globals' : ValueMap} (hf : MapRel κ fields fields')
    (hg : MapRel κ globals globals') (name : String) : MapRel κ (Natives.addGlobal fields globals name) (Natives.addGlobal fields' globals' name) := by
  unfold Natives.addGlobal
  have h1 := hg.get name
  have h2 := hf.get name
  cases hx : globals.get name <;> cases hy : globals'.get name <;> rw [hx, hy] at h1
  · dsimp only
    cases hu : fields.get name <;> cases hv : fields'.get name <;> rw [hu, hv] at h2
    · exact hg
    · cases h2
    · cases h2
    · cases h2 with
      | some h => exact hg.insert name h
  · cases h1
  · cases h1
  · exact hg

theorem Sim.MapRel.addGlobals {κ : List Value} {fields fields' : ValueMap} (hf : MapRel κ fields fields') : ∀ (names : List String)
    {globals globals' : ValueMap}, MapRel κ globals globals' →
    MapRel κ (names.foldl (Natives.addGlobal fields) globals) (names.foldl (Natives.addGlobal fields') globals')
  | [], _, _, h => h
  | x :: xs, _, _, h => MapRel.addGlobals hf xs (MapRel.addGlobal hf h x)

theorem runModule_deterministic {w : World} {n n' : Nat} {bc : Bytecode} {e : Value} {m : VM} (h : (runModule w n bc e m).1 ≠ .timeout)
    (h' : (runModule w n' bc e m).1 ≠ .timeout) : runModule w n bc e m = runModule w n' bc e m := by
  rcases Nat.le_total n n' with hn | hn
  · exact (runModule_mono hn bc e m h).symm
  · exact runModule_mono hn bc e m h'

section
variable {w : World} {known : Src.Known} {src : Src.Sources} {n k : Nat} {path : String} {m m' : VM} {σ σ' : State}
  {μ : Nat → Option Nat} {κ : List Value}

/-- **C18, C61.**  A machine on which the prelude was loaded corresponds to the evaluator's state after loading it. -/
theorem prelude_ready (hn : NativeRel w known) (hs : SourceRel w src) (hm : Ready μ κ σ m)
    (he : Src.loadPrelude w known src n path σ = (.ok (), σ')) (hr : loadPrelude w k path m = (.ok (), m')) (hp : m'.ptr < maxStack) :
    ∃ μ' κ', κ <+: κ' ∧ Ready μ' κ' σ' m' := by
  unfold Src.loadPrelude at he
  cases hsrc : src path with
  | none => rw [hsrc] at he; cases he
  | some root =>
  rw [hsrc] at he
  obtain ⟨es, t, bc, rfl, k1, k2, k3, k4⟩ := hs path root hsrc
  unfold loadPrelude at hr
  rw [k1] at hr
  dsimp only at he hr
  obtain ⟨e1, e2, e3⟩ := hm.inv.heap.newObject w.moduleClass
  have hm1 : Ready μ κ { σ with heap := (σ.heap.newObject w.moduleClass).2, modules := σ.modules.insert path (σ.heap.newObject w.moduleClass).1 }
      { m with heap := (m.heap.newObject w.moduleClass).2, modules := m.modules.insert path (m.heap.newObject w.moduleClass).1 } :=
    { inv := (hm.inv.data e3).module (hm.inv.modules.insert path (e1 ▸ .plain e2))
      capt := hm.capt }
  have hsim := runModule_sim (o := (σ.heap.newObject w.moduleClass).1) (callSpec hn hs n).1 (callSpec hn hs n).2 k2 k3 k4 (.plain e2) (hm1.st 0)
  rw [e1] at hsim he
  cases hx : runModule w k bc (m.heap.newObject w.moduleClass).1
      { m with heap := (m.heap.newObject w.moduleClass).2, modules := m.modules.insert path (m.heap.newObject w.moduleClass).1 } with
  | mk o m2 =>
  rw [hx] at hr
  cases o with
  | err | panic | timeout => cases hr
  | ok u =>
  dsimp only at hr
  have hend : ∀ {r m3}, Ends (runX w bc (m.heap.newObject w.moduleClass).1)
      { m with heap := (m.heap.newObject w.moduleClass).2, modules := m.modules.insert path (m.heap.newObject w.moduleClass).1 } r m3 →
      m2.ptr < maxStack → r = .done .normal ∧ m3 = { m2 with mem := upd m2.mem m2.ptr u, ptr := m2.ptr + 1 } := by
    rintro r m3 ⟨k', h1, h2⟩ hlt
    have hpu : Dice.push u m2 = (.ok (), { m2 with mem := upd m2.mem m2.ptr u, ptr := m2.ptr + 1 }) := by
      unfold Dice.push; exact if_pos hlt
    have hd := runModule_deterministic (w := w) (n := k') (n' := k) (bc := bc) (e := (m.heap.newObject w.moduleClass).1)
      (m := { m with heap := (m.heap.newObject w.moduleClass).2, modules := m.modules.insert path (m.heap.newObject w.moduleClass).1 })
      (fun ht => by
        unfold runX at h1
        rw [bind_timeout (Prod.ext ht rfl)] at h1
        cases h1) (by rw [hx]; simp)
    rw [hx] at hd
    unfold runX at h1 h2
    rw [bind_ok hd, bind_ok hpu] at h1 h2
    cases h1
    exact ⟨rfl, h2.symm⟩
  cases ho : m2.heap.asObject u with
  | none => rw [ho] at hr; cases hr
  | some obj =>
  rw [ho] at hr
  cases hr
  rcases hsim with ⟨s, m3, h1, h2⟩ | hsim
  · cases (hend h1 hp).1
  cases hmod : Src.module w (Src.calls w known src n) n (.block es t) (m.heap.newObject w.moduleClass).1
      { σ with heap := (σ.heap.newObject w.moduleClass).2, modules := σ.modules.insert path (m.heap.newObject w.moduleClass).1 } with
  | mk o σ2 =>
  rw [hmod] at he hsim
  cases o with
  | ok v =>
    obtain ⟨s, m3, h1, rfl, W', h2, h3, -, h5, -⟩ := hsim
    obtain ⟨-, rfl⟩ := hend h1 hp
    have hi := h5.inv
    rw [h3, mainCx_lam] at hi
    obtain ⟨-, q2, -⟩ := h5.rest.temps.uncons
    have hv : VRel W'.kap v u := by
      have : (upd m2.mem m2.ptr u) (m2.ptr + 1 - 1) = u := by rw [Nat.add_sub_cancel, upd_same]
      rw [← this]
      exact q2
    dsimp only at he
    rw [hi.heap.asObject hv] at he
    change (match m2.heap.asObject u with | some o => _ | none => _) = _ at he
    rw [ho] at he
    cases he
    refine ⟨W'.mu, W'.kap, h2.kap, ?_, h5.rest.capt⟩
    have hf : MapRel W'.kap ((σ2.heap.maps[obj.fields]?).getD []) ((m2.heap.maps[obj.fields]?).getD []) := by
      rcases hi.heap.maps.get obj.fields with ⟨h1, h2⟩ | ⟨x, y, h1, h2, hr⟩
      · change m2.heap.maps[obj.fields]? = none at h2
        rw [h1, h2]; exact .nil
      · change m2.heap.maps[obj.fields]? = some y at h2
        rw [h1, h2]; exact hr
    rw [← MapRel.keys hf]
    exact ((hi.scratch (mem := m2.mem) m2.ptr fun _ _ h => (by cases h)).global (MapRel.addGlobals hf _ hi.globals))
  | _ => cases he

end

/-- The sources of the modules of a program in the command line tool. -/
def toolSources (src : Src.Sources) : Src.Sources := fun path => if path = "prelude.dm" then some prelude else src path

theorem toolSources_rel {w : World} {loader : String → Except RtErr Bytecode} {src : Src.Sources}
    (hs : SourceRel { w with loader := loader } src) : SourceRel { w with loader := withPrelude loader } (toolSources src) := by
  intro path root h
  unfold toolSources at h
  split at h
  · next hp =>
    cases h
    obtain ⟨bc, h1, -, h2⟩ := prelude_compiles
    refine ⟨_, _, bc, rfl, ?_, h1, h2, by decide +kernel⟩
    show withPrelude loader path = _
    unfold withPrelude
    rw [if_pos hp, h1]
  · next hp =>
    obtain ⟨es, t, bc, h1, h2, h3⟩ := hs path root h
    refine ⟨es, t, bc, h1, ?_, h3⟩
    show withPrelude loader path = _
    unfold withPrelude
    rw [if_neg hp]
    exact h2

section
variable (constant : String → Float) (lib : FloatLib) (loader : String → Except RtErr Bytecode)
  (fmod : Float → Float → Float) (checks debug : Bool) (src : Src.Sources)

/-- The evaluator's state after loading the prelude, with the outcome of loading it. -/
def Src.boot : Out Unit × State :=
  Src.loadPrelude (tool lib loader fmod checks debug) runtimeKnown (toolSources src) 60 "prelude.dm" (stateOf (Natives.machine constant))

/-- The evaluator covers the prelude. -/
theorem prelude_evaluates : (Src.boot constant lib loader fmod checks debug src).1 = .ok () := by
  cases checks <;> cases debug <;> kernel_rfl

/-- **C18, C61.**  The runtime with the prelude corresponds to the evaluator's state after loading the prelude. -/
theorem tool_ready (hs : SourceRel (Natives.world lib loader fmod checks debug) src) :
    ∃ μ κ, Ready μ κ (Src.boot constant lib loader fmod checks debug src).2 (boot constant lib loader fmod checks debug).2 := by
  have h := prelude_loads constant lib loader fmod checks debug
  unfold bootOk at h
  simp only [Bool.and_eq_true, beq_iff_eq] at h
  obtain ⟨⟨⟨⟨h1, h2⟩, -⟩, -⟩, -⟩ := h
  have hb : (boot constant lib loader fmod checks debug) = (.ok (), (boot constant lib loader fmod checks debug).2) := by
    cases hx : boot constant lib loader fmod checks debug with
    | mk o m =>
      rw [hx] at h1
      cases o with
      | ok => rfl
      | _ => cases h1
  have hv : Src.boot constant lib loader fmod checks debug src = (.ok (), (Src.boot constant lib loader fmod checks debug src).2) := by
    have h3 := prelude_evaluates constant lib loader fmod checks debug src
    cases hx : Src.boot constant lib loader fmod checks debug src with
    | mk o σ =>
      rw [hx] at h3
      exact Prod.ext h3 (Eq.refl σ)
  generalize (boot constant lib loader fmod checks debug).2 = m' at hb h2 ⊢
  generalize (Src.boot constant lib loader fmod checks debug src).2 = σ' at hv ⊢
  unfold boot at hb
  unfold Src.boot at hv
  obtain ⟨μ, κ, -, hr⟩ := prelude_ready (known := runtimeKnown) (src := toolSources src)
    (runtime_natives lib (withPrelude loader) fmod checks debug) (toolSources_rel (w := Natives.world lib loader fmod checks debug) hs) (runtime_start constant).ready
    hv hb (by rw [h2]; unfold maxStack; omega)
  exact ⟨μ, κ, hr⟩

/-- **C18.**  A script that the compiler accepts, run by the command line tool after the prelude, does what evaluating its
syntax tree after the prelude does, unless the stack overflows. -/
theorem tool_program_agrees_partial {es : List Expr} {t : Option Expr} {bc : Bytecode}
    (hs : SourceRel (Natives.world lib loader fmod checks debug) src) (h : compile .script (.block es t) = .ok bc) (hf : Fits bc) :
    ∃ κ, ∀ n, Overflows (fun k => run (tool lib loader fmod checks debug) k bc) (boot constant lib loader fmod checks debug).2 ∨
      Agrees κ (fun k => run (tool lib loader fmod checks debug) k bc) (boot constant lib loader fmod checks debug).2 n
        (Src.program (tool lib loader fmod checks debug) runtimeKnown (toolSources src) n (.block es t)
          (Src.boot constant lib loader fmod checks debug src).2) := by
  obtain ⟨μ, κ, hr⟩ := tool_ready constant lib loader fmod checks debug src hs
  exact ⟨κ, compiled_program_agrees_partial (runtime_natives lib (withPrelude loader) fmod checks debug) (toolSources_rel (w := Natives.world lib loader fmod checks debug) hs) h hf hr⟩

end

end Dice
