import Verif.SlotGen
import Verif.RangeProps

/-!
# Loop variables

What a loop over an integer range needs of its body, read off the source: a body that does not capture the loop
variable leaves the variable and the bound on the stack alone.
-/

namespace Dice

/-! ## The loop variable in the environment -/

/-- A new immutable variable. -/
theorem Env.Own.new {g g' : Env} {x : String} {slot : Nat} (h : g.addLocal x (.initialized false) = some (slot, g')) :
    g'.Own slot x := by
  match g, h with
  | c :: rest, h =>
    obtain ⟨k, a, u, ⟨st, n⟩, t⟩ := c
    cases st with
    | nil => cases h
    | cons sc st =>
      cases h
      exact ⟨_, _, _, rfl, by unfold ScopeStack.visible; exact List.mem_append_left _ List.mem_cons_self, rfl, rfl, rfl, rfl⟩

/-- Only captured variables are closed. -/
theorem closeCode_captured {P : Nat → Prop} {vs : List ScopeVar} (h : ∀ v ∈ vs, v.isCaptured = true → v.slot < 256 ∧ ¬ P v.slot) :
    (closeCode vs).Spares P := by
  induction vs with
  | nil => trivial
  | cons v vs ih =>
    refine ⟨ih fun v hv => h v (List.mem_cons_of_mem _ hv), ?_⟩
    split
    · rename_i hc
      show ¬ P (UInt8.ofNat v.slot).toNat
      rw [byteOf (h v List.mem_cons_self hc).1]
      exact (h v List.mem_cons_self hc).2
    · trivial

theorem closeCode_noFn (vs : List ScopeVar) (b : Bytecode) : ¬ (closeCode vs).HasFn b := by
  induction vs with
  | nil => exact id
  | cons v vs ih =>
    rintro (h | h)
    · exact ih h
    · split at h <;> exact h

/-- Leaving the scope of a variable that is not captured. -/
theorem Env.Own.close {g g' : Env} {s : Nat} {x : String} {vs : List ScopeVar} (h : g.Own s x) (inv : StackInv g)
    (hp : g.popScope = some (vs, g')) (hN : g.slotCount ≤ 256) : (closeCode vs).Spares (· = s) := by
  refine closeCode_captured fun v hv hc => ⟨Nat.lt_of_lt_of_le (popScope_slot_lt inv hp hv) hN, ?_⟩
  obtain ⟨c, rest, top, st, rfl, hst, rfl, rfl⟩ := popScope_split hp
  obtain ⟨c', rest', u, he, hu, rfl, -, -, hcu⟩ := h
  cases he
  intro hs
  have hv' : v ∈ ScopeStack.visible c.scopes.stack := by
    rw [hst]
    exact List.mem_append_left _ hv
  have := slot_unique inv.2.1 hv' hu hs
  subst this
  rw [hc] at hcu
  cases hcu

/-! ## Good machines -/

section
variable {m : VM}

theorem GoodVM.drop (g : GoodVM m) (h : 0 < m.ptr) : GoodVM m.drop :=
  { g with
    mem := upd_good g.mem trivial
    clean := fun j hj => by
      have hj : m.ptr - 1 ≤ j := hj
      show upd m.mem (m.ptr - 1) .null j = .null ∨ m.OpenAt j
      by_cases hj2 : j = m.ptr - 1
      · exact .inl (by rw [hj2]; exact upd_same _ _ _)
      · rw [upd_other hj2]
        exact g.clean j (by omega) }

theorem GoodVM.pushed (g : GoodVM m) {v : Value} (hv : GoodValue v) : GoodVM (m.pushed v) :=
  { g with
    mem := upd_good g.mem hv
    clean := fun j hj => by
      have hj : m.ptr + 1 ≤ j := hj
      show upd m.mem m.ptr v j = .null ∨ m.OpenAt j
      rw [upd_other (by omega)]
      exact g.clean j (by omega) }

theorem GoodVM.wipe (g : GoodVM m) (n : Nat) : GoodVM (m.wipe n) :=
  { g with
    mem := memClear_good g.mem _ _
    clean := fun j hj => by
      show memClear m.mem m.ptr (m.ptr + n) j = .null ∨ m.OpenAt j
      unfold memClear
      split
      · exact .inl rfl
      · exact g.clean j hj }

theorem GoodVM.enter (g : GoodVM m) {j : Nat} (i : Int) (h : j < m.ptr) : GoodVM (m.enter j i) :=
  GoodVM.wipe (setMem_good g (v := .int i) trivial h) 2

end

/-! ## Runs of code -/

/-- `exec_spares` for runs. -/
theorem runs_spares {w : World} (hw : GoodWorld w) {f : Frame} {ups : Option (List Nat)} {N : Nat} (hf : f.start + N ≤ f.stop)
    {K : Targets} {l p q : Nat} {c : Code} (h : TF N K l p c q) (hfn : ∀ b, c.HasFn b → Fits b) {P : Nat → Prop} (hsp : c.Spares P)
    {m m' : VM} (g : GoodVM m) (hp : m.ptr = f.stop + p) {s : Sig} (hr : Runs w f ups c m (.done s) m') :
    GoodVM m' ∧ SigAt f K q s m'.ptr ∧ (s ≠ .stop → Keep (FrameKeep f P l) m m') := by
  obtain ⟨n, h1, h2⟩ := hr
  have k := exec_spares hw hf (b := n) (fun j _ => calls_good hw j) h.typed (fun b hb => h.fns b hb (hfn b hb)) hsp n (Nat.le_refl _) g hp
    (ups := ups)
  cases he : exec w f ups c n m with
  | mk o m1 =>
    rw [he] at h1 h2
    have h2 : m1 = m' := h2
    subst h2
    cases o with
    | ok r =>
      obtain ⟨s', i⟩ := r
      cases h1
      have hg := k.good
      rw [he] at hg
      obtain ⟨⟨hs, -⟩, hk⟩ := k.ok _ _ he
      refine ⟨hg, hs, fun hne => ?_⟩
      refine hk.mono fun j hj => ?_
      unfold ExecKeep
      rw [if_neg hne]
      exact hj
    | err => cases h1
    | panic => cases h1
    | timeout => cases h1

/-- What holds between two rounds: the machine is good, with `h + 1` values above the frame, the topmost being the
bound, and neither the bound nor the loop variable is a captured variable. -/
structure BetweenRounds (f : Frame) (slot h : Nat) (m : VM) : Prop where
  good : GoodVM m
  ptr : m.ptr = f.stop + h + 1
  var : ¬ m.OpenAt (f.start + slot)
  bound : ¬ m.OpenAt (f.stop + h)

/-- A body that does not capture the loop variable leaves it and the bound alone. -/
theorem body_keepsRange {w : World} (hw : GoodWorld w) {f : Frame} {ups : Option (List Nat)} {N h : Nat} {K : Targets} {c : Code}
    {vars : List ScopeVar} {slot : Nat} (hf : f.start + N ≤ f.stop) (hs : slot < N) (hs' : slot < 256) (hK : K.cont = none)
    (ht : TF N K (h + 1) (h + 1) c (h + 2)) (hfn : ∀ b, c.HasFn b → Fits b) (hsp : c.Spares (· = slot))
    (hcl : (closeCode vars).Spares (· = slot)) :
    KeepsRange f (Runs w f ups c) (Runs w f ups (closeCode vars)) (f.cell slot) (BetweenRounds f slot h) := by
  have hcell : f.cell slot = f.start + slot := by unfold Frame.cell; rw [byteOf hs']
  have run : ∀ {m m' : VM} {i : Int} {s : Sig}, BetweenRounds f slot h m → Runs w f ups c (m.enter (f.cell slot) i) (.done s) m' →
      GoodVM m' ∧ SigAt f K (h + 2) s m'.ptr ∧ (s ≠ .stop → Keep (FrameKeep f (· = slot) (h + 1)) (m.enter (f.cell slot) i) m') := by
    intro m m' i s I hr
    have hp := I.ptr
    exact runs_spares hw hf ht hfn hsp (I.good.enter i (by omega)) (show m.ptr = _ by omega) hr
  have hvar : FrameKeep f (· = slot) (h + 1) (f.cell slot) := .inr (.inr ⟨slot, rfl, hcell, by omega⟩)
  have hbound : FrameKeep f (· = slot) (h + 1) (f.stop + h) := .inr (.inl ⟨by omega, by omega⟩)
  have hcl' := closeCode_tf (N := N) (K := {}) (l := h + 2) (p := h + 2) vars (Nat.le_refl _)
  constructor
  · intro m m' i I _ hr
    have hp := I.ptr
    have : m'.ptr = f.stop + (h + 2) := (run I hr).2.1
    omega
  · intro m m' i I _ hr
    have hp := I.ptr
    rcases ((run I hr).2.2 (by simp) _ hvar).1 with h1 | h1
    · rw [h1]
      exact VM.enter_var (by omega)
    · exact absurd h1 (by rw [hcell]; exact I.var)
  · intro m m' i I _ hr
    have hp := I.ptr
    have he : m.ptr - 1 = f.stop + h := by omega
    rw [he]
    rcases ((run I hr).2.2 (by simp) _ hbound).1 with h1 | h1
    · rw [h1]
      exact VM.enter_below (by omega) (by omega)
    · exact absurd h1 I.bound
  · intro m m' i I _ hr
    obtain ⟨h, he, -⟩ := (run I hr).2.1
    rw [hK] at he
    cases he
  · intro m m1 m2 i I _ hr hc
    have hp := I.ptr
    obtain ⟨g1, p1, k1⟩ := run I hr
    have p1 : m1.ptr = f.stop + (h + 2) := p1
    have k1 := k1 (by simp)
    have g2 : GoodVM ((m1.drop.wipe 2).pushed (.int (i + 1))) := ((g1.drop (by omega)).wipe 2).pushed trivial
    have p2 : ((m1.drop.wipe 2).pushed (.int (i + 1))).ptr = f.stop + (h + 2) := by
      show m1.ptr - 1 + 1 = _
      omega
    obtain ⟨g3, p3, k3⟩ := runs_spares hw hf hcl' (fun b hb => absurd hb (closeCode_noFn vars b)) hcl g2 p2 hc
    have p3 : m2.ptr = f.stop + (h + 2) := p3
    have k3 := k3 (by simp)
    refine ⟨g3.drop (by omega), ?_, fun ho => ?_, fun ho => ?_⟩
    · show m2.ptr - 1 = _
      omega
    · refine I.var ((k1 _ (hcell ▸ hvar)).2 ((k3 (f.start + slot) (.inr (.inr ⟨slot, rfl, rfl, by omega⟩))).2 ho))
    · exact I.bound ((k1 _ hbound).2 ((k3 (f.stop + h) (.inr (.inl ⟨by omega, by omega⟩))).2 ho))

/-! ## How much must survive -/

/-- The same position, with another number of values that must survive. -/
def Heights.lower (l : Nat) (x : Heights) : Heights := { x with low := l }

theorem Heights.lower_enter (l : Nat) (x : Heights) : (x.lower l).enter = x.enter.lower l := by
  cases x with
  | mk low here temps brk cont chain => cases chain <;> rfl

theorem Heights.lower_over (l n : Nat) (x : Heights) : (x.lower l).over n = (x.over n).lower l := rfl

theorem Heights.lower_arg (l n : Nat) (x : Heights) : (x.lower l).arg n = (x.arg n).lower l := rfl

theorem Heights.lower_inner (l : Nat) (x : Heights) : (x.lower l).inner = x.inner.lower l := rfl

theorem Heights.lower_looping (l : Nat) (x : Heights) : (x.lower l).looping = x.looping.lower l := rfl

theorem Heights.lower_iterating (l n : Nat) (x : Heights) : (x.lower l).iterating n = (x.iterating n).lower l := rfl

theorem Heights.lower_returns (l : Nat) (x : Heights) : (x.lower l).returns = x.returns := rfl

theorem Heights.lower_chain (l : Nat) (x : Heights) : (x.lower l).chain = x.chain := rfl

theorem Heights.lower_here (l : Nat) (x : Heights) : (x.lower l).here = x.here := rfl

/-- Balance does not depend on how many values must survive. -/
theorem balanced_lower (l : Nat) (x : Heights) (e : Expr) : balanced (x.lower l) e = balanced x e := by
  apply balanced.induct (motive_1 := fun x e => balanced (x.lower l) e = balanced x e)
    (motive_2 := fun x fs => balancedArgs (x.lower l) fs = balancedArgs x fs)
    (motive_3 := fun x fs => balancedAll (x.lower l) fs = balancedAll x fs)
    (motive_4 := fun _ => True)
    (motive_5 := fun x fs => balancedOpt (x.lower l) fs = balancedOpt x fs)
    (motive_6 := fun x fs => balancedItems (x.lower l) fs = balancedItems x fs)
    (motive_7 := fun x fs => balancedFields (x.lower l) fs = balancedFields x fs)
  all_goals intros
  all_goals first | trivial | (simp_all only [balanced, balancedFields, balancedItems, balancedAll, balancedArgs, Heights.lower_enter, Heights.lower_over, Heights.lower_arg,
    Heights.lower_inner, Heights.lower_looping, Heights.lower_iterating, Heights.lower_returns, Heights.lower_chain, Heights.lower_here]; done)

/-! ## Loops over integer ranges -/

/-- **C23.**  A loop over an integer range, in a balanced program and with a body that does not capture the loop
variable, visits exactly the numbers of the range.  Once the bounds are computed (the end `j` first, then the start
`i`), the body is run for the numbers of `intsBelow i j` (`intsBelow i (j + 1)` for an inclusive range) in order,
with the loop variable set to each of them, until the list is exhausted or the body leaves the loop; then the bound is
dropped and the loop yields unit.

The frame must be as large as the compiler reserves it, there must be room for the two values of the loop on the
stack, no captured variable may have been left behind in the place of the loop variable or of the bound, and the end
of an inclusive range must not be the largest integer. -/
theorem range_loop_visits_source_partial {g g' : Env} {x : String} {op : BinaryOp} {a b body : Expr} {c : Code} {X : Heights}
    (h : Gen g (.expr (.forLoop x (.binary op a b) body)) c g') (hop : op = .rangeInclusive ∨ op = .rangeExclusive)
    (hx : At X g) (hfl : FlagInv g) (hbal : balanced X (.forLoop x (.binary op a b) body) = true)
    (hav : avoids x false body = true) (hN : g'.slotCount ≤ 256) (hfn : ∀ bc, c.HasFn bc → Fits bc) :
    ∃ ca cb cc slot vars, (∃ g1 g2, Gen g1 (.expr a) ca g2) ∧ (∃ g1 g2, Gen g1 (.expr b) cb g2) ∧ (∃ g1 g2, Gen g1 (.expr body) cc g2) ∧
      slot < g'.slotCount ∧
      ∀ {w : World} {f : Frame} {ups : Option (List Nat)} {m m1 m2 m' : VM} {r : Res} {i j : Int}, GoodWorld w → GoodVM m →
        f.start + g'.slotCount ≤ f.stop → m.ptr = f.stop + X.here → m.ptr + 2 < maxStack → r.Quiet →
        Runs w f ups cb m (.done .normal) m1 → Runs w f ups ca m1 (.done .normal) m2 → m1.Top (.int j) → m2.Top (.int i) →
        ¬ m1.OpenAt m.ptr → ¬ m2.OpenAt (f.start + slot) → InI64 i → InI64 (rangeEnd (op = .rangeInclusive) j) →
        (Runs w f ups c m r m' ↔
          DropsBound (ForSpec (Runs w f ups cc) (Runs w f ups (closeCode vars)) (f.start + slot)
            (max i (rangeEnd (op = .rangeInclusive) j)) (intsBelow i (rangeEnd (op = .rangeInclusive) j)) m2.drop) r m') := by
  cases h with
  | chain he => cases he
  | forLoop hns => rcases hop with rfl | rfl <;> exact absurd rfl (by first | exact (hns a b).1 | exact (hns a b).2)
  | @rangeLoop _ g1 g2 g3 g4 g5 _ _ _ _ _ _ c1 c2 c3 slot vars hop' h1 h2 h0 hl h3 hp =>
    have hb : (balanced X b = true ∧ balanced (X.over 1) a = true) ∧ balanced (X.iterating 1) body = true := by
      rcases hop with rfl | rfl <;> simpa only [Node.balanced, balanced, Bool.and_eq_true] using hbal
    -- the environments
    have hA1 := hx.gen h1 rfl
    have hA2 := hA1.gen h2 rfl
    have hA4 := (hA2.push_iterating h0 1).addLocal hl
    have hA4' : At ((X.iterating 1).lower (X.here + 1)) g4 := ⟨⟨Nat.le_refl _, hA4.fits.temps, hA4.fits.calls⟩, hA4.inv⟩
    have i5 := (hA4.gen h3 rfl).inv
    have l5 : g5.slotCount ≤ g'.slotCount := ((slotRel.popScope hp) i5).2.top
    have l4 : g4.slotCount ≤ g5.slotCount := ((h3.rel slotRel) hA4.inv).2.top
    have l2 : g2.slotCount ≤ g4.slotCount := ((slotRel.trans (slotRel.pushScope h0) (slotRel.addLocal hl)) hA2.inv).2.top
    have l1 : g1.slotCount ≤ g2.slotCount := ((h2.rel slotRel) hA1.inv).2.top
    have fl4 : FlagInv g4 := flagRel.addLocal hl (flagRel.pushScope h0 (h2.rel flagRel (h1.rel flagRel hfl)))
    have own := Env.Own.new hl
    have hslot : slot < g4.slotCount := own.lt_slots hA4.inv
    obtain ⟨own5, sp⟩ := h3.spares hav rfl hA4.inv fl4 own
    -- the code of the parts
    have t1 : TF g'.slotCount X.targets X.low X.here c1 (X.here + 1) :=
      h1.tf X _ hx hb.1.1 (by omega) (fun _ h => by cases h)
    have hA1' : At ((X.over 1).lower (X.here + 1)) g1 := ⟨⟨Nat.le_refl _, hA1.fits.temps, hA1.fits.calls⟩, hA1.inv⟩
    have t2 : TF g'.slotCount X.targets (X.here + 1) (X.here + 1) c2 (X.here + 2) :=
      h2.tf ((X.over 1).lower (X.here + 1)) _ hA1' (by show balanced _ a = true; rw [balanced_lower]; exact hb.1.2) (by omega)
        (fun _ h => by cases h)
    have t3 : TF g'.slotCount (X.iterating 1).targets (X.here + 1) (X.here + 1) c3 (X.here + 2) :=
      h3.tf _ _ hA4' (by show balanced _ body = true; rw [balanced_lower]; exact hb.2) l5 (fun _ h => by cases h)
    have f1 : ∀ bc, c1.HasFn bc → Fits bc := fun bc h => hfn bc (.inl h)
    have f2 : ∀ bc, c2.HasFn bc → Fits bc := fun bc h => hfn bc (.inr (.inl h))
    have f3 : ∀ bc, c3.HasFn bc → Fits bc := fun bc h => hfn bc (.inr (.inr (.inl (.inr (.inr (.inr (.inr (.inl h))))))))
    refine ⟨c2, c1, c3, slot, vars, ⟨_, _, h2⟩, ⟨_, _, h1⟩, ⟨_, _, h3⟩, by omega, ?_⟩
    intro w f ups m m1 m2 m' r i j hw gm hf hm hroom hq hr1 hr2 hj hi ho1 ho2 hI hJ
    have hcell : ∀ {k : Nat}, k < 256 → f.cell k = f.start + k := fun hk => by unfold Frame.cell; rw [byteOf hk]
    obtain ⟨g1', p1, -⟩ := runs_spares hw hf t1 f1 c1.spares_none gm hm hr1
    have p1 : m1.ptr = f.stop + (X.here + 1) := p1
    obtain ⟨g2', p2, k2⟩ := runs_spares hw hf t2 f2 c2.spares_none g1' p1 hr2
    have p2 : m2.ptr = f.stop + (X.here + 2) := p2
    have kb := k2 (by simp) (f.stop + X.here) (.inr (.inl ⟨by omega, by omega⟩))
    rw [hm] at ho1
    have hbnd : m2.mem (f.stop + X.here) = .int j := by
      rcases kb.1 with hk | hk
      · rw [hk, ← hj.top]
        congr 1
        omega
      · exact absurd hk ho1
    rw [← hcell (by omega : slot < 256)]
    refine range_runs hq hr1 hr2 hi ⟨by omega, by rw [hcell (by omega)]; omega, ?_, ?_, ?_, ?_, ?_⟩ (fun v hv => ?_)
      (body_keepsRange hw hf (by omega) (by omega) rfl t3 f3 (sp (by omega)) (own5.close i5 hp (by omega)))
      ⟨g2'.drop (by omega), ?_, ho2, fun ho => ho1 (kb.2 ho)⟩ hI hJ
    · show f.stop < m2.ptr - 1
      omega
    · show m2.ptr - 1 + 1 < maxStack
      omega
    · show 0 < m2.ptr - 1
      omega
    · show m2.ptr - 1 ≤ maxStack
      omega
    · show upd m2.mem (m2.ptr - 1) _ (m2.ptr - 1 - 1) = _
      rw [upd_other (by omega), ← hbnd]
      congr 1
      omega
    · have := popScope_slot_lt i5 hp hv
      rw [hcell (by omega)]
      omega
    · show m2.ptr - 1 = _
      omega

/-- The hypotheses are met by `for i in 0..3 { let f = |y| y; f(i); }`. -/
example : ∃ g c g' X, Gen g (.expr (.forLoop "i" (.binary .rangeExclusive (.int 0) (.int 3))
        (.block [.varDecl (.singular "f") false (.anonFn [⟨"y", none⟩] none (.ident "y")) none, .call (.ident "f") [.ident "i"]] none))) c g' ∧
      At X g ∧ FlagInv g ∧ balanced X (.forLoop "i" (.binary .rangeExclusive (.int 0) (.int 3))
        (.block [.varDecl (.singular "f") false (.anonFn [⟨"y", none⟩] none (.ident "y")) none, .call (.ident "f") [.ident "i"]] none)) = true ∧
      avoids "i" false
        (.block [.varDecl (.singular "f") false (.anonFn [⟨"y", none⟩] none (.ident "y")) none, .call (.ident "f") [.ident "i"]] none) = true ∧
      g'.slotCount ≤ 256 ∧ ∀ bc, c.HasFn bc → Fits bc := by
  obtain ⟨bc, m, hc, hb, hf, -⟩ := Findings.applies_sound (v := .unit) (e := .forLoop "i" (.binary .rangeExclusive (.int 0) (.int 3))
    (.block [.varDecl (.singular "f") false (.anonFn [⟨"y", none⟩] none (.ident "y")) none, .call (.ident "f") [.ident "i"]] none))
    (by decide +kernel)
  obtain ⟨fn, c, hp, hcc⟩ := compile_gen hc
  cases hp with
  | other _ h =>
    refine ⟨_, _, _, {}, h, at_start _, ⟨by simp, trivial⟩, hb, by decide +kernel, ?_, fun b hb => ?_⟩
    · show fn.scopes.slotCount ≤ 256
      rw [← hcc.slots]
      cases hf with
      | mk _ hs => exact hs
    · obtain ⟨n, i, hm⟩ := (hcc.layout hf).fn_mem hb
      cases hf with
      | mk _ _ _ fns => exact fns b n i hm

end Dice
