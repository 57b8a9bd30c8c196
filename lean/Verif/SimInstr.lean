import Verif.SimScope

/-!
# Instructions without calls
-/

namespace Dice.Sim

open Src (SEnv State Out S)

section
variable {C : Cx} {K : Nat → Prop} {W : Wd} {ts : List Value} {σ : State} {m : VM} {w : World}

/-! ## Instructions of the machine alone -/

theorem Does.istep {i : Instr} {P : VM → Prop} {s : Sig}
    (h : Does (step w (callsAt w 0) i.operands C.f C.ups i.opcode 0) m fun nx m1 => nx.sig = s ∧ P m1) :
    Does (istep w 0 C.f C.ups i) m fun s' m1 => s' = s ∧ P m1 :=
  h.bind fun _ _ h => .pure h

/-- The machine goes on alone. -/
theorem SimV.andThen {α β γ : Type} {y : V β} {k : β → V γ} {o : Out α × State} {Q : α → State → β → VM → Prop}
    {Q' : α → State → γ → VM → Prop} (h : SimV y m o Q) (hk : ∀ a σ1 b m1, Q a σ1 b m1 → Does (k b) m1 (Q' a σ1)) :
    SimV (y >>= k) m o Q' := by
  rcases h with h | h
  · exact .inl (h.bind k)
  · obtain ⟨o, σ'⟩ := o
    cases o with
    | ok a =>
      obtain ⟨b, m1, h1, h2⟩ := h
      rcases hk a σ' b m1 h2 with h3 | ⟨c, m2, h3, h4⟩
      · exact .inl (.after h1 h3)
      · exact .inr ⟨c, m2, (bind_ok h1).trans h3, h4⟩
    | err e => obtain ⟨m1, h1⟩ := h; exact .inr ⟨m1, bind_err h1⟩
    | abort => obtain ⟨s, m1, h1⟩ := h; exact .inr ⟨s, m1, bind_panic h1⟩
    | stuck => exact .inr trivial
    | jump => exact h.elim
    | timeout => exact h.elim

theorem SimV.istep {α : Type} {i : Instr} {o : Out α × State} {Q : α → State → VM → Prop}
    (h : SimV (Dice.step w (callsAt w 0) i.operands C.f C.ups i.opcode 0) m o fun a σ nx m1 => nx.sig = .normal ∧ Q a σ m1) :
    SimV (Dice.istep w 0 C.f C.ups i) m o (Norm Q) :=
  h.andThen fun _ _ _ _ hq => .pure hq

theorem Does.known {β γ : Type} {y : V β} {b : β} {k : β → V γ} {P : γ → VM → Prop} (h : y m = (.ok b, m))
    (hk : Does (k b) m P) : Does (y >>= k) m P := by
  rcases hk with hk | ⟨c, m1, h1, h2⟩
  · exact .inl (.after h hk)
  · exact .inr ⟨c, m1, (bind_ok h).trans h1, h2⟩

theorem SimV.known {α β γ : Type} {y : V β} {b : β} {k : β → V γ} {o : Out α × State} {Q : α → State → γ → VM → Prop}
    (h : y m = (.ok b, m)) (hk : SimV (k b) m o Q) : SimV (y >>= k) m o Q :=
  .step (Does.of h (P := fun b' m' => b' = b ∧ m' = m) ⟨rfl, rfl⟩) (by rintro _ _ ⟨rfl, rfl⟩; exact hk)

theorem symbol_sym (o : Opcode) (name : String) (m : VM) :
    symbolOperand (Instr.sym o name).operands 0 m = (.ok name, m) := rfl

/-- A constant is pushed. -/
theorem St.pushes {i : Instr} {v u : Value} {p : Nat} (h : St C K W ts σ m) (hv : VRel W.kap v u)
    (hs : step w (callsAt w 0) i.operands C.f C.ups i.opcode 0 m = (do Dice.push u; pure (Next.goto p)) m) :
    Does (istep w 0 C.f C.ups i) m fun s m1 => s = .normal ∧ St C K W (v :: ts) σ m1 := by
  refine .istep ?_
  have : Does (do Dice.push u; pure (Next.goto p)) m fun nx m1 => nx.sig = .normal ∧ St C K W (v :: ts) σ m1 :=
    (h.push hv).bind fun _ _ h => .pure ⟨rfl, h⟩
  unfold Does Over at this ⊢
  rw [hs]; exact this

theorem St.popOp {v : Value} (h : St C K W (v :: ts) σ m) :
    Does (istep w 0 C.f C.ups (.op .pop)) m fun s m1 => s = .normal ∧ St C K W ts σ m1 :=
  .istep (h.pop.bind fun _ _ h => .pure ⟨rfl, h.2⟩)

theorem St.dupOp {n : Nat} {v : Value} (h : St C K W ts σ m) (hn : ts[n]? = some v) (hb : n < 256) :
    Does (istep w 0 C.f C.ups (.num .dup n)) m fun s m1 => s = .normal ∧ St C K W (v :: ts) σ m1 := by
  refine .istep (.known (operand_num _ hb m) ((h.peek hn).bind ?_))
  rintro u _ ⟨hu, rfl⟩
  exact (h.push hu).bind fun _ _ h => .pure ⟨rfl, h⟩

theorem St.returnOp (h : St C K W ts σ m) :
    Does (istep w 0 C.f C.ups (.op .return_)) m fun s m1 => s = .stop ∧ St C K W ts σ m1 :=
  .istep (.pure ⟨rfl, h⟩)

theorem St.storeLocalOp {s : Nat} {v : Value} (h : St C K W (v :: ts) σ m) (hs : W.seg.length ≤ s)
    (hlt : C.f.start + s < C.f.stop) (hb : s < 256) :
    Does (istep w 0 C.f C.ups (.num .storeLocal s)) m fun sg m1 => sg = .normal ∧ St C K W (v :: ts) σ m1 ∧
      VRel W.kap v (m1.mem (C.f.start + s)) := by
  refine .istep (h.pop.bind ?_)
  rintro u m1 ⟨hu, h1⟩
  refine .known (operand_num _ hb m1) ((h1.setSlot (u := u) hs hlt).bind ?_)
  rintro _ m2 ⟨h2, h3⟩
  have hp := h2.ptr_eq
  by_cases hr : m2.ptr < maxStack
  · refine (Does.of (push_room hr) (P := fun _ m' => m' = m2.pushed u) rfl).bind ?_
    rintro _ m3 rfl
    refine .pure ⟨rfl, ?_, ?_⟩
    · rcases h2.push hu with ⟨s, m', h4, -⟩ | ⟨_, m', h4, h5⟩
      · rw [push_room hr] at h4; cases h4
      · rw [push_room hr] at h4; cases h4; exact h5
    · show VRel W.kap v (upd m2.mem m2.ptr u (C.f.start + s))
      rw [upd_other (by omega), h3]; exact hu
  · exact .inl ⟨"index out of bounds", m2, bind_panic (by unfold Dice.push; rw [if_neg hr]), by omega⟩

/-! ## Variables -/

theorem readLoc_cases (l : Nat) (σ : State) :
    (∃ v, σ.store[l]? = some (some v) ∧ Src.readLoc l σ = (.ok v, σ)) ∨ Src.readLoc l σ = (.stuck, σ) := by
  unfold Src.readLoc
  cases h : σ.store[l]? with
  | none => exact .inr rfl
  | some o =>
    cases o with
    | none => exact .inr rfl
    | some v => exact .inl ⟨v, rfl, rfl⟩

theorem St.loadLocalOp {s l : Nat} (h : St C K W ts σ m) (hs : slotLoc W.seg s = some l) (hb : s < 256) :
    SimV (istep w 0 C.f C.ups (.num .loadLocal s)) m (Src.readLoc l σ) (Norm fun v σ' m' =>
      σ' = σ ∧ St C K W (v :: ts) σ m') := by
  rcases readLoc_cases l σ with ⟨v, hv, e⟩ | e
  · rw [e]
    refine .istep (.known (operand_num _ hb m) (.step (h.readLocal hs hv) ?_))
    rintro u _ ⟨hu, rfl⟩
    exact .ok ((h.push hu).bind fun _ _ h => .pure ⟨rfl, rfl, h⟩)
  · rw [e]; exact .stuck

theorem St.assignLocalOp {s l : Nat} {v : Value} (h : St C K W (v :: ts) σ m) (hs : slotLoc W.seg s = some l) (hb : s < 256) :
    SimV (istep w 0 C.f C.ups (.num .assignLocal s)) m (Src.writeLoc l v σ) (Norm fun _ σ' m' =>
      σ.store.length ≤ σ'.store.length ∧ St C K W (.unit :: ts) σ' m') := by
  refine .istep (.step h.pop ?_)
  rintro u m1 ⟨hu, h1⟩
  refine .known (operand_num _ hb m1) (.step (h1.writeLocal hs hu) ?_)
  intro _ m2 h2
  exact .ok ((h2.push (.plain (v := .unit) trivial)).bind fun _ _ h => .pure ⟨rfl, by simp, h⟩)

/-- A function declaration fills its variable. -/
theorem St.storeVarOp {s l : Nat} {v : Value} (h : St C K W (v :: ts) σ m) (hs : slotLoc W.seg s = some l) (hb : s < 256) :
    SimV (istep w 0 C.f C.ups (.num .storeLocal s)) m (Src.writeLoc l v σ) (Norm fun _ σ' m' =>
      σ.store.length ≤ σ'.store.length ∧ St C K W (v :: ts) σ' m') := by
  refine .istep (.step h.pop ?_)
  rintro u m1 ⟨hu, h1⟩
  refine .known (operand_num _ hb m1) (.step (h1.writeLocal hs hu) ?_)
  intro _ m2 h2
  exact .ok ((h2.push hu).bind fun _ _ h => .pure ⟨rfl, by simp, h⟩)

theorem St.loadUpvalueOp {i l : Nat} (h : St C K W ts σ m) (hl : C.locs i = some l) (hb : i < 256) :
    SimV (istep w 0 C.f C.ups (.num .loadUpvalue i)) m (Src.readLoc l σ) (Norm fun v σ' m' =>
      σ' = σ ∧ St C K W (v :: ts) σ m') := by
  rcases readLoc_cases l σ with ⟨v, hv, e⟩ | e
  · rw [e]
    obtain ⟨a, h1, h2⟩ := h.rest.upvalue hl
    refine .istep (.known (operand_num _ hb m) (.known h1 (.step (h.readCell h2 hv) ?_)))
    rintro u _ ⟨hu, rfl⟩
    exact .ok ((h.push hu).bind fun _ _ h => .pure ⟨rfl, rfl, h⟩)
  · rw [e]; exact .stuck

theorem St.assignUpvalueOp {i l : Nat} {v : Value} (h : St C K W (v :: ts) σ m) (hl : C.locs i = some l) (hb : i < 256) :
    SimV (istep w 0 C.f C.ups (.num .assignUpvalue i)) m (Src.writeLoc l v σ) (Norm fun _ σ' m' =>
      σ.store.length ≤ σ'.store.length ∧ St C K W (.unit :: ts) σ' m') := by
  obtain ⟨a, h1, h2⟩ := h.rest.upvalue hl
  refine .istep (.known (operand_num _ hb m) (.known h1 (.step h.pop ?_)))
  rintro u m1 ⟨hu, h1⟩
  refine .step (h1.writeCell h2 hu) ?_
  intro _ m2 h2
  exact .ok ((h2.push (.plain (v := .unit) trivial)).bind fun _ _ h => .pure ⟨rfl, by simp, h⟩)

theorem St.loadGlobalOp (h : St C K W ts σ m) (x : String) :
    SimV (istep w 0 C.f C.ups (.sym .loadGlobal x)) m (Src.globalVar x σ) (Norm fun v σ' m' =>
      σ' = σ ∧ St C K W (v :: ts) σ m') := by
  refine .istep (.known (symbol_sym _ _ m) ?_)
  have hg := h.inv.globals.get x
  have key : SimV (loadGlobal x) m (Src.globalVar x σ) fun v σ' _ m' => σ' = σ ∧ St C K W (v :: ts) σ m' := by
    unfold Src.globalVar
    cases hs : σ.globals.get x with
    | none =>
      rw [hs] at hg
      cases hm : m.globals.get x with
      | some _ => rw [hm] at hg; cases hg
      | none =>
        refine .inr ⟨m, ?_⟩
        exact bind_err (by unfold globalValue; rw [hm])
    | some v =>
      rw [hs] at hg
      cases hm : m.globals.get x with
      | none => rw [hm] at hg; cases hg
      | some u =>
        rw [hm] at hg
        cases hg with
        | some hu =>
          refine .known (b := u) (by unfold globalValue; rw [hm]) ?_
          exact .ok ((h.push hu).mono fun _ _ h => ⟨rfl, h⟩)
  exact key.andThen fun _ _ _ _ h => .pure ⟨rfl, h⟩

theorem St.storeGlobalOp {v : Value} (h : St C K W (v :: ts) σ m) (x : String) :
    SimV (istep w 0 C.f C.ups (.sym .storeGlobal x)) m (Src.defineOp x v σ) (Norm fun _ σ' m' =>
      σ.store.length ≤ σ'.store.length ∧ St C K W ts σ' m') := by
  refine .istep (.known (symbol_sym _ _ m) ?_)
  have key : SimV (storeGlobal x) m (Src.defineOp x v σ) fun _ σ' _ m' =>
      σ.store.length ≤ σ'.store.length ∧ St C K W ts σ' m' := by
    refine .step h.pop ?_
    rintro u m1 ⟨hu, h1⟩
    have hg := h1.inv.globals.get x
    unfold Src.defineOp
    cases hs : σ.globals.get x with
    | some _ =>
      rw [hs] at hg
      cases hm : m1.globals.get x with
      | none => rw [hm] at hg; cases hg
      | some _ => exact .inr ⟨m1, by unfold defineGlobal; rw [hm]⟩
    | none =>
      rw [hs] at hg
      cases hm : m1.globals.get x with
      | some _ => rw [hm] at hg; cases hg
      | none =>
        refine .ok (.of (b := ()) (by unfold defineGlobal; rw [hm]) ⟨Nat.le_refl _, h1.global (h1.inv.globals.insert x hu)⟩)
  exact key.andThen fun _ _ _ _ h => .pure ⟨rfl, h⟩

/-! ## Data -/

theorem St.getField {v u : Value} (h : St C K W ts σ m) (hv : VRel W.kap v u) (key : String) :
    SimV (getField w key u) m (Src.fieldOf w key v σ) fun r σ' r' m' => σ' = σ ∧ m' = m ∧ VRel W.kap r r' := by
  rcases fieldOf_rel h.inv.heap w key hv with ⟨r, r', h1, h2, h3⟩ | ⟨e, h1, h2⟩
  · rw [h1]; exact .ok (.of h2 ⟨rfl, rfl, h3⟩)
  · rw [h1]; exact .inr ⟨m, h2⟩

theorem St.loadFieldOp {v : Value} (h : St C K W (v :: ts) σ m) (key : String) :
    SimV (istep w 0 C.f C.ups (.sym .loadField key)) m (Src.fieldOf w key v σ) (Norm fun r σ' m' =>
      σ' = σ ∧ St C K W (r :: ts) σ m') := by
  refine .istep (.known (symbol_sym _ _ m) (.step h.pop ?_))
  rintro u m1 ⟨hu, h1⟩
  refine (h1.getField hu key).andThen ?_
  rintro r σ' r' m' ⟨rfl, rfl, hr⟩
  exact (h1.push hr).bind fun _ _ h => .pure ⟨rfl, rfl, h⟩

theorem operand_slot (key : String) {s : Nat} (hs : s < 256) (m : VM) :
    operand (Instr.fieldToLocal key (UInt8.ofNat s)).operands 1 m = (.ok s, m) := by
  show (Outcome.ok (UInt8.ofNat s).toNat, m) = _
  have : (UInt8.ofNat s).toNat = s := by simp; omega
  rw [this]

theorem St.fieldToLocalOp {s : Nat} {v : Value} (h : St C K W (v :: ts) σ m) (key : String) (hs : W.seg.length ≤ s)
    (hlt : C.f.start + s < C.f.stop) (hb : s < 256) :
    SimV (istep w 0 C.f C.ups (.fieldToLocal key (UInt8.ofNat s))) m (Src.fieldOf w key v σ) (Norm fun r σ' m' =>
      σ' = σ ∧ St C K W (r :: ts) σ m' ∧ VRel W.kap r (m'.mem (C.f.start + s))) := by
  have h0 : operand (Instr.fieldToLocal key (UInt8.ofNat s)).operands 0 m = (.ok 0, m) := rfl
  have h1 : constant (Instr.fieldToLocal key (UInt8.ofNat s)).operands 0 m = (.ok (.sym key), m) := rfl
  have h2 : asSymbol (.sym key) m = (.ok key, m) := rfl
  refine .istep (.known h0 (.known (operand_slot key hb m) (.known h1 (.known h2 (.step h.pop ?_)))))
  rintro u m1 ⟨hu, h1⟩
  refine (h1.getField hu key).andThen ?_
  rintro r σ' r' m' ⟨rfl, rfl, hr⟩
  refine (h1.setSlot (u := r') hs hlt).bind ?_
  rintro _ m2 ⟨h2, h3⟩
  have hp := h2.ptr_eq
  by_cases hroom : m2.ptr < maxStack
  · refine (Does.of (push_room hroom) (P := fun _ m' => m' = m2.pushed r') rfl).bind ?_
    rintro _ m3 rfl
    refine .pure ⟨rfl, rfl, ?_, ?_⟩
    · rcases h2.push hr with ⟨s, m', h4, -⟩ | ⟨_, m', h4, h5⟩
      · rw [push_room hroom] at h4; cases h4
      · rw [push_room hroom] at h4; cases h4; exact h5
    · show VRel W.kap r (upd m2.mem m2.ptr r' (C.f.start + s))
      rw [upd_other (by omega), h3]; exact hr
  · exact .inl ⟨"index out of bounds", m2, bind_panic (by unfold Dice.push; rw [if_neg hroom]), by omega⟩

/-- Writing a field; the machine then pushes something. -/
theorem St.setField {o v : Value} (h : St C K W (v :: o :: ts) σ m) (key : String) {r : Value → Value} {r0 : Value} {p : Nat}
    (hr : ∀ u, VRel W.kap v u → VRel W.kap r0 (r u)) :
    SimV (do
        let v ← Dice.pop
        let o ← Dice.pop
        let obj ← asObject o
        onHeap fun h => ((), h.setField obj key v)
        Dice.push (r v)
        pure (Next.goto p)) m (Src.setFieldOf key o v σ) fun _ σ' nx m' =>
      nx.sig = .normal ∧ σ.store.length ≤ σ'.store.length ∧ St C K W (r0 :: ts) σ' m' := by
  refine .step h.pop ?_
  rintro u m1 ⟨hu, h1⟩
  refine .step h1.pop ?_
  rintro u' m2 ⟨hu', h2⟩
  rcases setFieldOf_rel h2.inv.heap key hu' hu with ⟨obj, a, b, e1, e2, rfl, e4⟩ | ⟨e1, e2⟩
  · rw [e1]
    refine .known e2 (.step (Does.of (b := ()) rfl (P := fun _ m' => St C K W ts { σ with heap := a } m') (h2.data e4)) ?_)
    intro _ m3 h3
    exact .ok ((h3.push (hr u hu)).bind fun _ _ h => .pure ⟨rfl, Nat.le_refl _, h⟩)
  · rw [e1]; exact .inr ⟨m2, bind_err e2⟩

theorem St.storeFieldOp {o v : Value} (h : St C K W (v :: o :: ts) σ m) (key : String) :
    SimV (istep w 0 C.f C.ups (.sym .storeField key)) m (Src.setFieldOf key o v σ) (Norm fun _ σ' m' =>
      σ.store.length ≤ σ'.store.length ∧ St C K W (v :: ts) σ' m') :=
  .istep (.known (symbol_sym _ _ m) (h.setField key (r := id) fun _ h => h))

theorem St.assignFieldOp {o v : Value} (h : St C K W (v :: o :: ts) σ m) (key : String) :
    SimV (istep w 0 C.f C.ups (.sym .assignField key)) m (Src.setFieldOf key o v σ) (Norm fun _ σ' m' =>
      σ.store.length ≤ σ'.store.length ∧ St C K W (.unit :: ts) σ' m') :=
  .istep (.known (symbol_sym _ _ m) (h.setField key (r := fun _ => .unit) fun _ _ => .plain trivial))

theorem St.loadIndexOp {t i : Value} (h : St C K W (i :: t :: ts) σ m) :
    SimV (istep w 0 C.f C.ups (.op .loadIndex)) m (Src.elementOf w t i σ) (Norm fun r σ' m' =>
      σ' = σ ∧ St C K W (r :: ts) σ m') := by
  refine .istep ?_
  have key : SimV (loadIndex w) m (Src.elementOf w t i σ) fun r σ' _ m' => σ' = σ ∧ St C K W (r :: ts) σ m' := by
    refine .step h.pop ?_
    rintro u m1 ⟨hu, h1⟩
    refine .step (h1.peek (i := 0) rfl) ?_
    rintro u' _ ⟨hu', rfl⟩
    rcases elementOf_rel h1.inv.heap w hu' hu with ⟨r, r', e1, e2, e3⟩ | ⟨e, e1, e2⟩ | e1
    · rw [e1]
      exact .known e2 (.ok ((h1.poke e3).mono fun _ _ h => ⟨rfl, h⟩))
    · rw [e1]; exact .inr ⟨_, bind_err e2⟩
    · rw [e1]; exact .stuck
  exact key.andThen fun _ _ _ _ h => .pure ⟨rfl, h⟩

theorem St.assignIndexOp {t i v : Value} (h : St C K W (v :: i :: t :: ts) σ m) :
    SimV (istep w 0 C.f C.ups (.op .assignIndex)) m (Src.setElementOf t i v σ) (Norm fun _ σ' m' =>
      σ.store.length ≤ σ'.store.length ∧ St C K W (.unit :: ts) σ' m') := by
  refine .istep ?_
  have key : SimV (setIndex fun _ => .unit) m (Src.setElementOf t i v σ) fun _ σ' _ m' =>
      σ.store.length ≤ σ'.store.length ∧ St C K W (.unit :: ts) σ' m' := by
    refine .step h.pop ?_
    rintro u m1 ⟨hu, h1⟩
    refine .step h1.pop ?_
    rintro u' m2 ⟨hu', h2⟩
    refine .step (h2.peek (i := 0) rfl) ?_
    rintro u'' _ ⟨hu'', rfl⟩
    rcases setElementOf_rel h2.inv.heap hu'' hu' hu with ⟨a, b, e1, e2, e3⟩ | ⟨e, e1, e2⟩ | ⟨msg, e1, e2⟩ | e1
    · rw [e1]
      refine .step (Does.of e2 (P := fun _ m' => St C K W (t :: ts) { σ with heap := a } m') (h2.data e3)) ?_
      intro _ m3 h3
      exact .ok ((h3.poke (.plain (v := .unit) trivial)).mono fun _ _ h => ⟨Nat.le_refl _, h⟩)
    · rw [e1]; exact .inr ⟨_, bind_err e2⟩
    · rw [e1]; exact .inr ⟨_, _, bind_panic e2⟩
    · rw [e1]; exact .stuck
  exact key.andThen fun _ _ _ _ h => .pure ⟨rfl, h⟩

theorem St.createObjectOp (h : St C K W ts σ m) :
    SimV (istep w 0 C.f C.ups (.op .createObject)) m (Src.onHeap (fun h => h.newObject w.anyClass) σ) (Norm fun v σ' m' =>
      σ.store.length ≤ σ'.store.length ∧ St C K W (v :: ts) σ' m') := by
  refine .istep ?_
  obtain ⟨h1, hp, h2⟩ := h.inv.heap.newObject w.anyClass
  refine .ok (Does.bind (P := fun v m' => VRel W.kap (σ.heap.newObject w.anyClass).1 v ∧
    St C K W ts { σ with heap := (σ.heap.newObject w.anyClass).2 } m') (.inr ⟨_, _, rfl, ?_, h.data h2⟩) ?_)
  · exact (show VRel W.kap _ (m.heap.newObject w.anyClass).1 from h1 ▸ .plain hp)
  · rintro u m1 ⟨hu, h1⟩
    exact (h1.push hu).bind fun _ _ h => .pure ⟨rfl, Nat.le_refl _, h⟩

theorem St.createArrayOp {vs : List Value} (h : St C K W (vs.reverse ++ ts) σ m) (hb : vs.length < 256) :
    SimV (istep w 0 C.f C.ups (.num .createArray vs.length)) m (Src.onHeap (fun h => h.newArray vs) σ) (Norm fun v σ' m' =>
      σ.store.length ≤ σ'.store.length ∧ St C K W (v :: ts) σ' m') := by
  refine .istep (.known (operand_num _ hb m) ?_)
  have := h.popCount
  rw [List.length_reverse, List.reverse_reverse] at this
  refine .step this ?_
  rintro us m1 ⟨hu, h1⟩
  obtain ⟨e1, hp, e2⟩ := h1.inv.heap.newArray hu
  refine .ok (Does.bind (P := fun v m' => VRel W.kap (σ.heap.newArray vs).1 v ∧
    St C K W ts { σ with heap := (σ.heap.newArray vs).2 } m') (.inr ⟨_, _, rfl, ?_, h1.data e2⟩) ?_)
  · exact (show VRel W.kap _ (m1.heap.newArray us).1 from e1 ▸ .plain hp)
  · rintro u m2 ⟨hu, h2⟩
    exact (h2.push hu).bind fun _ _ h => .pure ⟨rfl, Nat.le_refl _, h⟩

/-! ## Operators -/

theorem St.intResult (x : Int) : SimV (i64Result w x) m (Src.intResult w x σ) fun v σ' r m' =>
    σ' = σ ∧ m' = m ∧ v = .int r := by
  unfold i64Result Src.intResult
  by_cases h1 : InI64 x
  · rw [if_pos h1, if_pos h1]; exact .pure ⟨rfl, rfl, rfl⟩
  · rw [if_neg h1, if_neg h1]
    by_cases h2 : w.checks = true
    · rw [if_pos h2, if_pos h2]; exact .abort
    · rw [if_neg h2, if_neg h2]; exact .pure ⟨rfl, rfl, rfl⟩

theorem VRel.int_eq {κ : List Value} {v : Value} {x : Int} (h : VRel κ (.int x) v) : v = .int x :=
  (h.eq (by simp [Value.shape])).symm

theorem VRel.float_eq {κ : List Value} {v : Value} {x : Float} (h : VRel κ (.float x) v) : v = .float x :=
  (h.eq (by simp [Value.shape])).symm

theorem VRel.bool_eq {κ : List Value} {v : Value} {x : Bool} (h : VRel κ (.bool x) v) : v = .bool x :=
  (h.eq (by simp [Value.shape])).symm

theorem St.negateOp {v : Value} (h : St C K W (v :: ts) σ m) :
    SimV (istep w 0 C.f C.ups (.op .negate)) m (Src.unary w .negate v σ) (Norm fun r σ' m' =>
      σ' = σ ∧ St C K W (r :: ts) σ m') := by
  refine .istep (.step (h.peek (i := 0) rfl) ?_)
  rintro u m ⟨hu, rfl⟩
  have key : SimV (negate w u) m (Src.unary w .negate v σ) fun r σ' r' m' => σ' = σ ∧ m' = m ∧ VRel W.kap r r' := by
    by_cases h1 : ∃ x, v = .int x
    · obtain ⟨x, rfl⟩ := h1
      rw [VRel.int_eq hu]
      refine (St.intResult (-x)).andThen ?_
      rintro _ _ r _ ⟨rfl, rfl, rfl⟩
      exact .pure ⟨rfl, rfl, .plain trivial⟩
    · by_cases h2 : ∃ x, v = .float x
      · obtain ⟨x, rfl⟩ := h2
        rw [VRel.float_eq hu]
        exact .pure ⟨rfl, rfl, .plain trivial⟩
      · have h1' : ∀ x, u ≠ .int x := by
          rintro x rfl
          cases hu with
          | plain _ => exact h1 ⟨_, rfl⟩
          | fn _ hf _ => cases hf
        have h2' : ∀ x, u ≠ .float x := by
          rintro x rfl
          cases hu with
          | plain _ => exact h2 ⟨_, rfl⟩
          | fn _ hf _ => cases hf
        have e1 : negate w u = V.err .assertNumber := by
          cases u <;> first | rfl | exact absurd rfl (h1' _) | exact absurd rfl (h2' _)
        have e2 : Src.unary w .negate v = S.err .assertNumber := by
          cases v <;> first | rfl | exact absurd ⟨_, rfl⟩ h1 | exact absurd ⟨_, rfl⟩ h2
        rw [e1, e2]; exact .err
  refine key.andThen ?_
  rintro r _ r' _ ⟨rfl, rfl, hr⟩
  exact (h.poke hr).bind fun _ _ h => .pure ⟨rfl, rfl, h⟩

theorem VRel.not_bool {κ : List Value} {v u : Value} (h : VRel κ v u) (hn : ¬ ∃ b, v = .bool b) : ∀ b, u ≠ .bool b :=
  fun b he => hn ⟨b, (h.bool_iff b).2 he⟩

theorem St.notOp {v : Value} (h : St C K W (v :: ts) σ m) :
    SimV (istep w 0 C.f C.ups (.op .not)) m (Src.unary w .not v σ) (Norm fun r σ' m' =>
      σ' = σ ∧ St C K W (r :: ts) σ m') := by
  refine .istep (.step (h.peek (i := 0) rfl) ?_)
  rintro u m ⟨hu, rfl⟩
  by_cases h1 : ∃ b, v = .bool b
  · obtain ⟨b, rfl⟩ := h1
    rw [VRel.bool_eq hu]
    exact .known rfl (.ok ((h.poke (.plain (v := .bool !b) trivial)).bind fun _ _ h => .pure ⟨rfl, rfl, h⟩))
  · have h1' := VRel.not_bool hu h1
    have e1 : notValue u = V.err .assertBool := by
      cases u <;> first | rfl | exact absurd rfl (h1' _)
    have e2 : Src.unary w .not v = S.err .assertBool := by
      cases v <;> first | rfl | exact absurd ⟨_, rfl⟩ h1
    rw [e1, e2]
    exact .inr ⟨m, rfl⟩

/-- The check of an operand of `&&` and `||`. -/
theorem St.assertBoolOp {v : Value} (h : St C K W (v :: ts) σ m) :
    SimV (istep w 0 C.f C.ups (.op .assertBool)) m (Src.operandBool v σ) (Norm fun b σ' m' =>
      σ' = σ ∧ v = .bool b ∧ St C K W (v :: ts) σ m') := by
  refine .istep (.step (h.peek (i := 0) rfl) ?_)
  rintro u m ⟨hu, rfl⟩
  by_cases h1 : ∃ b, v = .bool b
  · obtain ⟨b, rfl⟩ := h1
    rw [VRel.bool_eq hu]
    exact .pure ⟨rfl, rfl, rfl, h⟩
  · have h1' := VRel.not_bool hu h1
    have e2 : Src.operandBool v = S.err .assertBool := by
      cases v <;> first | rfl | exact absurd ⟨_, rfl⟩ h1
    rw [e2]
    refine .inr ⟨m, ?_⟩
    cases u <;> first | rfl | exact absurd rfl (h1' _)

/-- A condition. -/
theorem St.popTruth {v : Value} (h : St C K W (v :: ts) σ m) :
    SimV popBool m (Src.truth v σ) fun b σ' b' m' => σ' = σ ∧ b' = b ∧ St C K W ts σ m' := by
  refine .step h.pop ?_
  rintro u m1 ⟨hu, h1⟩
  by_cases hb : ∃ b, v = .bool b
  · obtain ⟨b, rfl⟩ := hb
    rw [VRel.bool_eq hu]
    exact .pure ⟨rfl, rfl, h1⟩
  · have h1' := VRel.not_bool hu hb
    have e2 : Src.truth v = S.err .invalidBool := by
      cases v <;> first | rfl | exact absurd ⟨_, rfl⟩ hb
    rw [e2]
    refine .inr ⟨m1, ?_⟩
    cases u <;> first | rfl | exact absurd rfl (h1' _)

/-! ## Types and classes -/

theorem VRel.cls_eq {κ : List Value} {v : Value} {c : Nat} (h : VRel κ (.cls c) v) : v = .cls c :=
  (h.eq (by simp [Value.shape])).symm

/-- A value as a class. -/
theorem asClass_rel {κ : List Value} {c u : Value} (h : VRel κ c u) :
    SimV (asClass u) m (Src.classRef c σ) fun k σ' k' m' => σ' = σ ∧ m' = m ∧ k' = k ∧ c = .cls k := by
  by_cases h1 : ∃ k, c = .cls k
  · obtain ⟨k, rfl⟩ := h1
    rw [VRel.cls_eq h]
    exact .pure ⟨rfl, rfl, rfl, rfl⟩
  · have h1' : ∀ k, u ≠ .cls k := by
      rintro k rfl
      cases h with
      | plain _ => exact h1 ⟨_, rfl⟩
      | fn _ hf _ => cases hf
    have e1 : asClass u = V.err .invalidClass := by
      cases u <;> first | rfl | exact absurd rfl (h1' _)
    have e2 : Src.classRef c = S.err .invalidClass := by
      cases c <;> first | rfl | exact absurd ⟨_, rfl⟩ h1
    rw [e1, e2]; exact .err

theorem St.checkType (h : St C K W ts σ m) {v u : Value} (hv : VRel W.kap v u) (b : Bool) (k : Nat) :
    SimV (assertTypeOf w b k u) m (Src.checkType w b k v σ) fun _ σ' _ m' => σ' = σ ∧ m' = m := by
  unfold assertTypeOf Src.checkType assertType
  rw [hv.isNull, h.inv.heap.isOfType w k hv]
  cases u.isNull with
  | true =>
    cases b with
    | true => exact .pure ⟨rfl, rfl⟩
    | false => exact .err
  | false =>
    simp only [Bool.false_eq_true, if_false]
    cases hi : m.heap.isOfType w u k with
    | true => exact .inr ⟨(), m, if_pos hi, rfl, rfl⟩
    | false => exact .inr ⟨m, if_neg (by rw [hi]; simp)⟩

theorem St.isOp {c v : Value} (h : St C K W (c :: v :: ts) σ m) :
    SimV (istep w 0 C.f C.ups (.op .is)) m (Src.testType w c v σ) (Norm fun r σ' m' =>
      σ' = σ ∧ St C K W (r :: ts) σ m') := by
  refine .istep (.step h.pop ?_)
  rintro u m1 ⟨hu, h1⟩
  unfold Src.testType
  refine (asClass_rel (m := m1) (σ := σ) hu).bind ?_
  rintro _ σ k m1 ⟨rfl, rfl, rfl, -⟩
  refine .step (h1.peek (i := 0) rfl) ?_
  rintro u' m1 ⟨hu', rfl⟩
  rw [h1.inv.heap.isOfType w _ hu']
  refine .known (b := m1.heap.isOfType w u' k) rfl ?_
  exact .ok ((h1.poke (.plain (v := .bool _) trivial)).bind fun _ _ h => .pure ⟨rfl, rfl, h⟩)

/-- The check of a variable. -/
theorem St.checkVarOp {c : Value} {s l : Nat} (b : Bool) (h : St C K W (c :: ts) σ m) (hs : slotLoc W.seg s = some l)
    (hb : s < 256) :
    SimV (istep w 0 C.f C.ups (.num (localCheck b) s)) m
      ((do let k ← Src.classRef c; let v ← Src.readLoc l; Src.checkType w b k v : S Unit) σ) (Norm fun _ σ' m' =>
      σ' = σ ∧ St C K W ts σ m') := by
  have key : SimV (do
      let c ← Dice.pop
      let cls ← asClass c
      let s ← operand (Instr.num (localCheck b) s).operands 0
      let v ← frameGet C.f s
      assertTypeOf w b cls v
      pure (Next.goto 1)) m ((do let k ← Src.classRef c; let v ← Src.readLoc l; Src.checkType w b k v : S Unit) σ)
      fun _ σ' nx m' => nx.sig = .normal ∧ σ' = σ ∧ St C K W ts σ m' := by
    refine .step h.pop ?_
    rintro u m1 ⟨hu, h1⟩
    refine (asClass_rel (m := m1) (σ := σ) hu).bind ?_
    rintro _ σ k m1 ⟨rfl, rfl, rfl, -⟩
    refine .known (operand_num _ hb m1) ?_
    rcases readLoc_cases l σ with ⟨v, hv, e⟩ | e
    · show SimV _ m1 (S.bind (Src.readLoc l) _ σ) _
      unfold S.bind
      rw [e]
      refine .step (h1.readLocal hs hv) ?_
      rintro u' m1 ⟨hu', rfl⟩
      refine (h1.checkType hu' b k).andThen ?_
      rintro _ _ _ _ ⟨rfl, rfl⟩
      exact .pure ⟨rfl, rfl, h1⟩
    · show SimV _ m1 (S.bind (Src.readLoc l) _ σ) _
      unfold S.bind
      rw [e]; exact .stuck
  refine .istep ?_
  cases b <;> exact key

/-- The check of a result. -/
theorem St.checkResultOp {c v : Value} (b : Bool) (h : St C K W (c :: v :: ts) σ m) :
    SimV (istep w 0 C.f C.ups (.op (returnCheck b))) m
      ((do let k ← Src.classRef c; Src.checkType w b k v : S Unit) σ) fun _ σ' s m' =>
      s = .stop ∧ σ' = σ ∧ St C K W (v :: ts) σ m' := by
  have key : SimV (do
      let c ← Dice.pop
      let cls ← asClass c
      let v ← Dice.peek 0
      assertTypeOf w b cls v
      pure Next.stop) m ((do let k ← Src.classRef c; Src.checkType w b k v : S Unit) σ)
      fun _ σ' nx m' => nx.sig = .stop ∧ σ' = σ ∧ St C K W (v :: ts) σ m' := by
    refine .step h.pop ?_
    rintro u m1 ⟨hu, h1⟩
    refine (asClass_rel (m := m1) (σ := σ) hu).bind ?_
    rintro _ σ k m1 ⟨rfl, rfl, rfl, -⟩
    refine .step (h1.peek (i := 0) rfl) ?_
    rintro u' m1 ⟨hu', rfl⟩
    refine (h1.checkType hu' b k).andThen ?_
    rintro _ _ _ _ ⟨rfl, rfl⟩
    exact .pure ⟨rfl, rfl, h1⟩
  refine SimV.andThen (Q := fun _ σ' nx m' => nx.sig = .stop ∧ σ' = σ ∧ St C K W (v :: ts) σ m') ?_ fun _ _ _ _ hq => .pure hq
  cases b <;> exact key

theorem St.inheritClassOp {b : Value} (h : St C K W (b :: ts) σ m) (name : String) :
    SimV (istep w 0 C.f C.ups (.sym .inheritClass name)) m (Src.derive w name b σ) (Norm fun c σ' m' =>
      σ.store = σ'.store ∧ St C K W (c :: ts) σ' m' ∧ ∃ k, c = .cls k) := by
  refine .istep (.known (symbol_sym _ _ m) ?_)
  have key : SimV (inheritClass w name) m (Src.derive w name b σ) fun c σ' _ m' =>
      σ.store = σ'.store ∧ St C K W (c :: ts) σ' m' ∧ ∃ k, c = .cls k := by
    refine .step h.pop ?_
    rintro u m1 ⟨hu, h1⟩
    refine (asClass_rel (m := m1) (σ := σ) hu).bind ?_
    rintro _ σ k m1 ⟨rfl, rfl, rfl, -⟩
    dsimp only
    by_cases hv : k ≠ w.anyClass ∧ ∃ i ∈ [ValueKind.null, .unit, .bool, .int, .float, .function, .array, .string,
      .symbol, .object, .class], w.valueClass i = some k
    · rw [if_pos hv, if_pos hv]; exact .err
    · rw [if_neg hv, if_neg hv]
      unfold Src.newClass
      rcases h1.inv.heap.classes.get k with ⟨e1, e2⟩ | ⟨c, d, e1, e2, hr⟩
      · rw [e1]; exact .stuck
      · obtain ⟨e3, hp, e4⟩ := h1.inv.heap.classWithBase name k hr
        simp only [e1]
        refine .step (P := fun v m' => VRel W.kap (σ.heap.classWithBase name k c).1 v ∧
          St C K W ts { σ with heap := (σ.heap.classWithBase name k c).2 } m')
          (.of (b := (m1.heap.classWithBase name k d).1)
            (m1 := { m1 with heap := (m1.heap.classWithBase name k d).2 }) ?_ ⟨e3 ▸ .plain hp, h1.data e4⟩) ?_
        · unfold deriveClass; rw [e2]
        · rintro u' m2 ⟨hu', h2⟩
          exact .ok ((h2.push hu').mono fun _ _ h => ⟨rfl, h, _, rfl⟩)
  exact key.andThen fun _ _ _ _ h => .pure ⟨rfl, h⟩

theorem St.storeMethodOp {c v : Value} (h : St C K W (v :: c :: ts) σ m) (hk : v.kind = .function) (key : String) :
    SimV (istep w 0 C.f C.ups (.sym .storeMethod key)) m (Src.setMethodOf key c v σ) (Norm fun _ σ' m' =>
      σ.store = σ'.store ∧ St C K W ts σ' m') := by
  refine .istep (.known (symbol_sym _ _ m) (.step h.pop ?_))
  rintro u m1 ⟨hu, h1⟩
  refine .step h1.pop ?_
  rintro u' m2 ⟨hu', h2⟩
  unfold Src.setMethodOf
  refine (asClass_rel (m := m2) (σ := σ) hu').bind ?_
  rintro _ σ k m1 ⟨rfl, rfl, rfl, -⟩
  rw [if_pos (hu.kind ▸ hk)]
  refine .step (Does.of (b := ()) rfl (P := fun _ m' => St C K W ts { σ with heap := σ.heap.setMethod k key v } m')
    (h2.data (h2.inv.heap.setMethod k key hu))) ?_
  intro _ m3 h3
  exact .ok (.pure ⟨rfl, rfl, h3⟩)

theorem St.loadMethodOp {c v : Value} (h : St C K W (v :: c :: ts) σ m) (key : String) :
    SimV (istep w 0 C.f C.ups (.sym .loadMethod key)) m (Src.superMethod w key c v σ) (Norm fun r σ' m' =>
      σ' = σ ∧ St C K W (r :: ts) σ m') := by
  refine .istep (.known (symbol_sym _ _ m) (.step h.pop ?_))
  rintro u m1 ⟨hu, h1⟩
  refine .step h1.pop ?_
  rintro u' m2 ⟨hu', h2⟩
  unfold Src.superMethod
  refine (asClass_rel (m := m2) (σ := σ) hu').bind ?_
  rintro _ σ k m2 ⟨rfl, rfl, rfl, -⟩
  rw [h2.inv.heap.isOfType w k hu]
  refine .known (b := m2.heap.isOfType w u k) rfl ?_
  cases hi : m2.heap.isOfType w u k with
  | false => exact .err
  | true =>
    simp only [if_true]
    have h3 := h2.inv.heap.method k key
    cases hm : σ.heap.method k key with
    | none =>
      rw [hm] at h3
      cases hm' : m2.heap.method k key with
      | some _ => rw [hm'] at h3; cases h3
      | none =>
        refine .known (b := .null) (by simp only [getMethod, Option.bind_some, hm']) ?_
        exact .ok ((h2.push (.plain (v := .null) trivial)).bind fun _ _ h => .pure ⟨rfl, rfl, h⟩)
    | some f =>
      rw [hm] at h3
      cases hm' : m2.heap.method k key with
      | none => rw [hm'] at h3; cases h3
      | some f' =>
        rw [hm'] at h3
        cases h3 with
        | some h3 =>
          refine .known (b := .fnBound u f') (by simp only [getMethod, Option.bind_some, hm']) ?_
          exact .ok ((h2.push (.bound hu h3)).bind fun _ _ h => .pure ⟨rfl, rfl, h⟩)

theorem St.popKnown {b : Bool} (h : St C K W (.bool b :: ts) σ m) :
    Does popBool m fun b' m' => b' = b ∧ St C K W ts σ m' := by
  refine h.pop.bind ?_
  rintro u m1 ⟨hu, h1⟩
  rw [VRel.bool_eq hu]
  exact .pure ⟨rfl, h1⟩

end

end Dice.Sim
