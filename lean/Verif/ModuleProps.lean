import Verif.SlotProps
import Verif.DeclaredTypes
import Verif.GlobalProps
import Verif.NameProps

/-!
# The result of running a module

The compiler reserves the first variable of a module for its exports and ends the module by loading it.  Nothing in
between stores to that variable or leaves the module early, so the importer that runs a module receives the object
that was registered before the module was started, the same that later importers receive.
-/

namespace Dice

/-! ## No early returns -/

/-- Modules contain no code that ends them early. -/
theorem Gen.module_goes {g g' : Env} {e : Expr} {c : Code} (h : Gen g (.expr e) c g') {ks : List CompilerKind}
    (hk : g.kinds = .module :: ks) : Guarded (fun _ => False) c :=
  h.guardedBy (fun h => by cases h) hk (fun _ _ _ _ h => by cases h)

/-! ## The variable of the exports -/

/-- After the block that is the module, only the variable of the exports is left. -/
theorem module_variable {g : Env} {slot : Nat} {es : List Expr} {t : Option Expr} {c : Code} {fn : Ctx} {v : ScopeVar}
    (h0 : Env.addLocal nameExport (.initialized false) [{ kind := .module }] = some (slot, g))
    (h : Gen g (.expr (.block es t)) c [fn]) (hv : Env.lookup nameExport [fn] = some v) : slot = 0 ∧ v.slot = 0 := by
  have inv := (at_module h0).inv
  have hg : g.view = [[(nameExport, 0)]] := by cases h0; rfl
  have hf : Env.view [fn] = g.view := by
    cases h with
    | chain he => cases he
    | blockExpr h =>
      cases h with
      | block h1 hs h hp => exact (Widens.scope h1 (widensRel.trans (widensRel.scanDecls hs) h.widens) hp inv).2.1
  have inv' := (h.rel slotRel inv).1
  have hlen : (Env.vars [fn]).length = 1 := by rw [Env.vars_view, hf, hg]; rfl
  have hm : v.slot ∈ (ScopeStack.visible fn.scopes.stack).map (·.slot) := List.mem_map_of_mem (local?_mem hv).1
  rw [inv'.2.1.slots] at hm
  have := List.mem_range.1 (List.mem_reverse.1 hm)
  rw [vars_length inv' rfl] at hlen
  exact ⟨by cases h0; rfl, by omega⟩

/-! ## Running a module -/

/-- The code of a module that comes to its end leaves the object of the exports on the stack. -/
theorem module_code_yields {w : World} (hw : GoodWorld w) {es : List Expr} {t : Option Expr} {bc : Bytecode}
    (h : compile .module (.block es t) = .ok bc) (hb : balanced {} (.block es t) = true) (hf : Fits bc)
    (ha : avoids nameExport false (.block es t) = true) {n : Nat} {f : Frame} {m m' : VM} (hs : f.start + bc.slotCount = f.stop)
    (g : GoodVM m) (hp : m.ptr = f.stop) (ho : ¬ m.OpenAt f.start) (hr : loop w n bc f none 0 m = (.ok (), m')) :
    m'.mem f.stop = m.mem f.start ∧ m'.ptr = f.stop + 1 := by
  obtain ⟨fn, c, hpg, hc⟩ := compile_gen h
  have ht := hpg.tf hb
  have hl := hc.layout hf
  have hfn : ∀ b, c.HasFn b → Fits b := by
    intro b hb
    obtain ⟨n, i, hm⟩ := hl.fn_mem hb
    cases hf with
    | mk _ _ _ fns => exact fns b n i hm
  have hsc : Scoped false false false c := (hc.slots ▸ ht.typed).scoped
  rw [loop_scoped hl hsc n] at hr
  obtain ⟨⟨s, k⟩, m1, he, hend⟩ := Sim.bind_done hr
  cases hpg with
  | @module _ g0 slot _ c v h0 hg hv =>
    obtain ⟨rfl, hv0⟩ := module_variable h0 hg hv
    obtain ⟨⟨s1, k1⟩, m2, h1, h2⟩ := Sim.bind_done he
    have hN : Env.slotCount [fn] = bc.slotCount := hc.slots.symm
    have t1 : TF bc.slotCount {} 0 0 c 1 :=
      hg.tf {} _ (at_module h0) hb (Nat.le_of_eq hN) (fun _ h => by cases h)
    have i0 := (at_module h0).inv
    have fl0 : FlagInv g0 := flagRel.addLocal h0 ⟨by simp, trivial⟩
    obtain ⟨-, sp⟩ := hg.spares ha rfl i0 fl0 (Env.Own.new h0)
    have h256 : bc.slotCount ≤ 256 := by
      cases hf with
      | mk _ slots _ _ => exact slots
    obtain ⟨g2, p2, k2⟩ := runs_spares hw (by omega) t1 (fun b hb => hfn b (.inl hb)) (sp (by omega)) g hp (runs_of h1)
    have hkinds : g0.kinds = [.module] := by cases h0; rfl
    cases s1 with
    | stop =>
      obtain ⟨_, _, _, h, _⟩ := (hg.module_goes hkinds).stop_in h1
      exact h.elim
    | brk => obtain ⟨_, e, _⟩ := p2; cases e
    | cont => obtain ⟨_, e, _⟩ := p2; cases e
    | exit => obtain ⟨_, e, _⟩ := p2; cases e
    | normal =>
      have p2 : m2.ptr = f.stop + 1 := p2
      have hslots : 0 < bc.slotCount := compile_module_slots h
      have hk := (k2 (by simp) f.start (.inr (.inr ⟨0, rfl, rfl, by omega⟩))).1.resolve_right ho
      have htail := runs_of (show exec w f none (.block [.op .pop, .num .loadLocal v.slot]) k1 m2 = (.ok (s, k), m1) from h2)
      rw [runs_block] at htail
      rcases htail with ⟨h3, hne⟩ | ⟨m3, h3, h4⟩
      · exact absurd ((runs_pop (by simp [Res.Quiet])).1 h3).2.1 hne
      obtain ⟨⟨u, htop⟩, -, rfl⟩ := (runs_pop (by simp [Res.Quiet])).1 h3
      have hroom := htop.max
      have hcell : f.cell v.slot = f.start := by rw [hv0]; rfl
      have hd : m2.drop.ptr = f.stop := by show m2.ptr - 1 = _; omega
      rw [runs_known fun r m' => runs_loadLocal (by omega) (by omega) (by omega)] at h4
      obtain ⟨-, rfl⟩ := runs_nop.1 h4
      have hm : m' = m2.drop.pushed (m2.drop.mem (f.cell v.slot)) := by
        cases s <;> cases k <;> first | (cases hend; rfl) | cases hend
      rw [hm]
      refine ⟨?_, by show m2.drop.ptr + 1 = _; omega⟩
      show upd m2.drop.mem m2.drop.ptr (m2.drop.mem (f.cell v.slot)) f.stop = _
      rw [hd, upd_same, hcell, ← hk]
      exact upd_other (by omega)
  | other hk => exact absurd rfl hk

/-- **C31.**  Running a module yields the object that it was given for its exports. -/
theorem module_yields_exports {w : World} (hw : GoodWorld w) {es : List Expr} {t : Option Expr} {bc : Bytecode}
    (h : compile .module (.block es t) = .ok bc) (hb : balanced {} (.block es t) = true) (hf : Fits bc)
    (ha : avoids nameExport false (.block es t) = true) {n : Nat} {m m' : VM} (g : GoodVM m) (ho : ¬ m.OpenAt m.ptr) {e v : Value}
    (he : GoodValue e) (hr : runModule w n bc e m = (.ok v, m')) : v = e := by
  cases n with
  | zero => rw [runModule] at hr; cases hr
  | succ n =>
    rw [runModule] at hr
    obtain ⟨f, m1, e1, hr⟩ := Sim.bind_done hr
    obtain ⟨_, m2, e2, hr⟩ := Sim.bind_done hr
    obtain ⟨x, m3, e3, hr⟩ := Sim.bind_done hr
    obtain ⟨_, m4, e4, hr⟩ := Sim.bind_done hr
    cases hr
    have hf1 : f = { start := m.ptr, stop := m.ptr + bc.slotCount } ∧ m1 = { m with ptr := m.ptr + bc.slotCount } := by
      unfold reserveSlots at e1
      dsimp only at e1
      split at e1
      · cases e1
      · cases e1; exact ⟨rfl, rfl⟩
    obtain ⟨rfl, rfl⟩ := hf1
    have hs0 := compile_module_slots h
    have g1 : GoodVM { m with ptr := m.ptr + bc.slotCount } :=
      { g with clean := fun j hj => g.clean j (by have hj : m.ptr + bc.slotCount ≤ j := hj; omega) }
    have hm2 : m2 = { m with mem := upd m.mem m.ptr e, ptr := m.ptr + bc.slotCount } := by
      unfold memSet at e2
      split at e2
      · cases e2; rfl
      · cases e2
    have g2 : GoodVM m2 := by
      rw [hm2]
      exact setMem_good g1 he (show m.ptr < m.ptr + bc.slotCount by omega)
    cases n with
    | zero => rw [execute] at e3; cases e3
    | succ n =>
      rw [execute] at e3
      obtain ⟨_, _, e5, e3⟩ := Sim.bind_done e3
      cases e5
      obtain ⟨_, m5, e5, e3⟩ := Sim.bind_done e3
      obtain ⟨hmem, hptr⟩ := module_code_yields hw h hb hf ha rfl g2 (by rw [hm2]) (by rw [hm2]; exact ho) e5
      unfold finishExecute at e3
      obtain ⟨_, _, e6, e3⟩ := Sim.bind_done e3
      cases e6
      split at e3
      · cases e3
      · unfold pop at e3
        split at e3
        · cases e3
        · cases e3
          rw [hptr]
          refine hmem.trans ?_
          rw [hm2]
          exact upd_same _ _ _

/-- **C31.**  The importer that runs a module receives the object under which the module was registered before it was
started, hence the same as the later importers: an import that succeeds always yields the registered object.

The source of the module must be balanced and within the limits of the encoding, and no captured variable may have been
left behind in the place where the first variable of the module comes to lie. -/
theorem import_yields_registered_partial {w : World} (hw : GoodWorld w) {name source : String} {root : Expr} {bc : Bytecode}
    (hl : w.loader name = .ok bc) (hs : Parser.parseSource source = .ok root) (h : compile .module root = .ok bc)
    (hb : balanced {} root = true) (hf : Fits bc) {n : Nat} {m m' : VM} (g : GoodVM m) (ho : ¬ m.OpenAt m.ptr) {v : Value}
    (hr : moduleValue w (callsAt w n) name m = (.ok v, m')) : m'.modules.get name = some v := by
  obtain ⟨es, t, rfl, ha⟩ := parsed_names (x := nameExport) hs (by decide +kernel) (by
    rintro ⟨c, cs, hc, h1, -⟩
    have : c = '#' := by
      have : nameExport.toList = '#' :: "export".toList := by decide +kernel
      rw [this] at hc
      cases hc
      rfl
    rw [this] at h1
    exact absurd h1 (by decide +kernel))
  cases hn : m.modules.get name with
  | some u =>
    rw [module_again w _ hn] at hr
    cases hr
    exact hn
  | none =>
    let r := m.heap.newObject w.moduleClass
    let m0 : VM := { m with heap := r.2, modules := m.modules.insert name r.1 }
    have h0 : m0.modules.get name = some r.1 := by
      show (m.modules.insert name r.1).get name = _
      rw [ValueMap.get_insert, if_pos rfl]
    have g0 : GoodVM m0 :=
      { g with
        heap := (newObject_good g.heap _).1
        modules := g.modules.insert name trivial }
    unfold moduleValue at hr
    rw [hn] at hr
    dsimp only at hr
    rw [hl] at hr
    have hr : runModule w n bc r.1 m0 = (.ok v, m') := hr
    have hv : v = r.1 := module_yields_exports hw h hb hf (ha false) g0 ho trivial hr
    have := (exec_pres (modulesKept_prims w) n).2.2.2.2.2 bc r.1 m0 name r.1 h0
    rw [hr] at this
    rw [hv]
    exact this

/-! ## A module -/

namespace Findings

/-- A module with a variable of its own, a function that captures it, and two exports. -/
def moduleSource : String := "let mut n = 1 export let one = n export fn next() { n += 1 n } n += one"

/-- The world in which every module has this source. -/
def moduleWorld (bc : Bytecode) : World := { world true with loader := fun _ => .ok bc }

/-- Importing gives the first object of the heap after those of the machine, twice. -/
def importsTwice : Bool :=
  match Parser.parseSource moduleSource with
  | .error _ => false
  | .ok root => balanced {} root && match compile .module root with
    | .error _ => false
    | .ok bc => fitsUpTo 9 bc && match moduleValue (moduleWorld bc) (callsAt (moduleWorld bc) 200) "m" machine with
      | (.ok (.object a), m) => match (moduleValue (moduleWorld bc) (callsAt (moduleWorld bc) 200) "m" m).1 with
        | .ok (.object b) => a == b && (m.modules.get "m").isSome && (machine.modules.get "m").isNone
        | _ => false
      | _ => false

/-- The hypotheses of `import_yields_registered_partial` can be met. -/
example : ∃ bc root v m', Parser.parseSource moduleSource = .ok root ∧ compile .module root = .ok bc ∧ balanced {} root = true ∧
    Fits bc ∧ GoodWorld (moduleWorld bc) ∧ GoodVM machine ∧ ¬ machine.OpenAt machine.ptr ∧
    moduleValue (moduleWorld bc) (callsAt (moduleWorld bc) 200) "m" machine = (.ok v, m') := by
  have h : importsTwice = true := by decide +kernel
  unfold importsTwice at h
  split at h
  · cases h
  rename_i root hp
  rw [Bool.and_eq_true] at h
  obtain ⟨hb, h⟩ := h
  split at h
  · cases h
  rename_i bc hc
  rw [Bool.and_eq_true] at h
  obtain ⟨hf, h⟩ := h
  split at h
  · rename_i a m hm
    refine ⟨bc, root, _, _, hp, hc, hb, fitsUpTo_sound hf, ?_, machine_good, ?_, hm⟩
    · exact Dice.world_good (world_good true).native fun name b hl => by
        cases hl
        exact ⟨root, hc, hb, fitsUpTo_sound hf⟩
    · rintro ⟨a, ha⟩
      cases ha
  · cases h

end Findings

end Dice
