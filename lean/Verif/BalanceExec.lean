import Verif.BalanceStep

/-!
# Structured code and calls follow the stack discipline
-/

namespace Dice

/-- Where the stack pointer is when code with targets `K` and final height `q` ends with a signal. -/
def SigAt (f : Frame) (K : Targets) (q : Nat) : Sig → Nat → Prop
  | .normal, p => p = f.stop + q
  | .brk, p => ∃ h, K.brk = some h ∧ p = f.stop + h
  | .cont, p => ∃ h, K.cont = some h ∧ p = f.stop + h
  | .exit, p => ∃ h, K.exit = some h ∧ p = f.stop + h
  | .stop, p => p = f.stop + 1

theorem popBool_moves {m : VM} {S : Nat → Prop} (g : GoodVM m) (hS : ∀ j, S j → j + 1 < m.ptr) :
    Shifts m popBool S (fun _ p => p + 1 = m.ptr) := by
  unfold popBool
  refine (pop_moves g hS).bind fun v m1 g1 h1 => ?_
  exact (asBool_moves g1 v).weaken fun _ p h => by omega

theorem returnCheck_moves {w : World} {k : Calls} {m : VM} (g : GoodVM m) {f : Frame} {S : Nat → Prop}
    {ups : Option (List Nat)} {b : Bool} (hS : ∀ j, S j → j + 1 < m.ptr) :
    Shifts m (step w k ⟨[], 0, 0, []⟩ f ups (returnCheck b) 0) S (fun nx p => nx.sig = .stop ∧ p + 1 = m.ptr) := by
  cases b
  · show Shifts m (do
      let c ← pop
      let cls ← asClass c
      let v ← peek 0
      assertTypeOf w false cls v
      pure Next.stop) S _
    refine (pop_moves g hS).bind fun c m1 g1 h1 => ?_
    refine (asClass_moves g1 c).bind fun cls m2 g2 h2 => ?_
    refine (peek_moves g2 0).bind fun v m3 g3 h3 => ?_
    exact (assertTypeOf_moves g3 w _ cls v).bind fun _ m4 g4 h4 => .pure g4 ⟨rfl, by omega⟩
  · show Shifts m (do
      let c ← pop
      let cls ← asClass c
      let v ← peek 0
      assertTypeOf w true cls v
      pure Next.stop) S _
    refine (pop_moves g hS).bind fun c m1 g1 h1 => ?_
    refine (asClass_moves g1 c).bind fun cls m2 g2 h2 => ?_
    refine (peek_moves g2 0).bind fun v m3 g3 h3 => ?_
    exact (assertTypeOf_moves g3 w _ cls v).bind fun _ m4 g4 h4 => .pure g4 ⟨rfl, by omega⟩

theorem tick_moves {α : Type} {m : VM} (g : GoodVM m) {x : Nat → V α} {S : Nat → Prop} {P : α → Nat → Prop} (n : Nat)
    (h : ∀ k, n = k + 1 → Shifts m (x k) S P) : Shifts m (tick x n) S P := by
  cases n with
  | zero => exact .timeout g
  | succ k => exact h k rfl

/-- `Shifts`, where the positions kept depend on the result. -/
structure ShiftsD {α : Type} (m : VM) (x : V α) (S : α → Nat → Prop) (P : α → Nat → Prop) : Prop where
  good : GoodVM (x m).2
  ok : ∀ a m', x m = (.ok a, m') → P a m'.ptr ∧ Keep (S a) m m'

section
variable {α β : Type} {m : VM}

theorem Shifts.dep {x : V α} {S : Nat → Prop} {P : α → Nat → Prop} (h : Shifts m x S P) : ShiftsD m x (fun _ => S) P :=
  ⟨h.good, h.ok⟩

theorem ShiftsD.bind {x : V α} {f : α → V β} {Sx : α → Nat → Prop} {S : β → Nat → Prop} {P : α → Nat → Prop}
    {Q : β → Nat → Prop} (hx : ShiftsD m x Sx P)
    (hf : ∀ a m', GoodVM m' → P a m'.ptr → ShiftsD m' (f a) S (fun b p => Q b p ∧ ∀ j, S b j → Sx a j)) :
    ShiftsD m (x >>= f) S Q := by
  cases h : x m with
  | mk o m1 =>
    have g1 : GoodVM m1 := by have := hx.good; rw [h] at this; exact this
    cases o with
    | ok a =>
      obtain ⟨hp, hk⟩ := hx.ok a m1 h
      have h2 := hf a m1 g1 hp
      refine ⟨by rw [bind_ok h]; exact h2.good, fun b m' hb => ?_⟩
      rw [bind_ok h] at hb
      obtain ⟨⟨hq, hs⟩, hk2⟩ := h2.ok b m' hb
      exact ⟨hq, (hk.mono hs).trans hk2⟩
    | err e => exact ⟨by rw [bind_err h]; exact g1, fun b m' hb => by rw [bind_err h] at hb; cases hb⟩
    | panic e => exact ⟨by rw [bind_panic h]; exact g1, fun b m' hb => by rw [bind_panic h] at hb; cases hb⟩
    | timeout => exact ⟨by rw [bind_timeout h]; exact g1, fun b m' hb => by rw [bind_timeout h] at hb; cases hb⟩

theorem ShiftsD.weaken {x : V α} {S : α → Nat → Prop} {P Q : α → Nat → Prop} (h : ShiftsD m x S P)
    (hp : ∀ a p, P a p → Q a p) : ShiftsD m x S Q := ⟨h.good, fun a m' ha => ⟨hp _ _ (h.ok a m' ha).1, (h.ok a m' ha).2⟩⟩

theorem ShiftsD.pure {a : α} {S : α → Nat → Prop} {P : α → Nat → Prop} (g : GoodVM m) (hp : P a m.ptr) :
    ShiftsD m (Pure.pure a : V α) S P :=
  ⟨g, fun b m' hb => by cases hb; exact ⟨hp, Keep.refl _ _⟩⟩

theorem ShiftsD.timeout {S : α → Nat → Prop} {P : α → Nat → Prop} (g : GoodVM m) : ShiftsD m (V.timeout : V α) S P :=
  ⟨g, fun b m' hb => by cases hb⟩

theorem tick_dep (g : GoodVM m) {x : Nat → V α} {S : α → Nat → Prop} {P : α → Nat → Prop} (n : Nat)
    (h : ∀ k, n = k + 1 → ShiftsD m (x k) S P) : ShiftsD m (tick x n) S P := by
  cases n with
  | zero => exact .timeout g
  | succ k => exact h k rfl

end

/-- The positions that running code keeps: those below the frame and the lowest `l` values of the function; if
the function returned, only those below the frame. -/
def ExecKeep (f : Frame) (P : Nat → Prop) (l : Nat) (r : Sig × Nat) (j : Nat) : Prop :=
  FrameKeep f P (if r.1 = .stop then 0 else l) j

theorem FrameKeep.more {f : Frame} {P : Nat → Prop} {l j : Nat} (h : FrameKeep f P 0 j) : FrameKeep f P l j :=
  h.imp_right fun h => h.imp_left fun h => ⟨h.1, by have := h.2; omega⟩

theorem ExecKeep.keep {f : Frame} {P : Nat → Prop} {l : Nat} {r : Sig × Nat} {j : Nat} (h : ExecKeep f P l r j) : FrameKeep f P l j := by
  unfold ExecKeep at h
  split at h
  · exact h.more
  · exact h

theorem ExecKeep.same {f : Frame} {P : Nat → Prop} {l j : Nat} {s s' : Sig} {k k' : Nat} (hs : s ≠ .stop)
    (h : ExecKeep f P l (s', k') j) : ExecKeep f P l (s, k) j := by
  unfold ExecKeep
  rw [if_neg hs]
  exact h.keep

theorem exec_straight {w : World} {f : Frame} {ups : Option (List Nat)} {c : Code} (hs : c.Straight) {n : Nat} {m : VM}
    {s : Sig} {k : Nat} {m' : VM} (h : exec w f ups c n m = (.ok (s, k), m')) : s = .normal ∨ s = .stop := by
  induction c generalizing n m s k m' with
  | nop => cases h; exact .inl rfl
  | instr i =>
    cases n with
    | zero => cases h
    | succ n =>
      have h : (istep w n f ups i >>= fun s => pure (s, n) : V (Sig × Nat)) m = _ := h
      unfold istep at h
      rw [bind_assoc] at h
      obtain ⟨nx, m1, h1, h2⟩ := bind_ok_inv h
      cases h2
      cases nx
      · exact .inl rfl
      · exact .inr rfl
  | seq a b iha ihb =>
    obtain ⟨⟨s1, k1⟩, m1, h1, h2⟩ := bind_ok_inv h
    rcases iha hs.1 h1 with rfl | rfl
    · exact ihb hs.2 h2
    · cases h2; exact .inr rfl
  | _ => exact hs.elim

/-- Leaving code leaves. -/
theorem exec_leaves {w : World} {f : Frame} {ups : Option (List Nat)} {c : Code} (hc : c.Leaves) {n : Nat} {m : VM}
    {s : Sig} {k : Nat} {m' : VM} (h : exec w f ups c n m = (.ok (s, k), m')) : s = .stop := by
  induction hc generalizing n m s k m' with
  | ret =>
    cases n with
    | zero => cases h
    | succ n => cases h; rfl
  | @retTyped b =>
    cases n with
    | zero => cases h
    | succ n =>
      have h : (istep w n f ups (.op (returnCheck b)) >>= fun s => pure (s, n) : V (Sig × Nat)) m = _ := h
      unfold istep at h
      rw [bind_assoc] at h
      obtain ⟨nx, m1, h1, h2⟩ := bind_ok_inv h
      cases h2
      cases b <;>
      · obtain ⟨c, m2, -, h1⟩ := bind_ok_inv h1
        obtain ⟨cls, m3, -, h1⟩ := bind_ok_inv h1
        obtain ⟨v, m4, -, h1⟩ := bind_ok_inv h1
        obtain ⟨_, m5, -, h1⟩ := bind_ok_inv h1
        cases h1
        rfl
  | left hl ih =>
    obtain ⟨⟨s1, k1⟩, m1, h1, h2⟩ := bind_ok_inv h
    cases ih h1
    cases h2
    rfl
  | right ha hl ih =>
    obtain ⟨⟨s1, k1⟩, m1, h1, h2⟩ := bind_ok_inv h
    rcases exec_straight ha h1 with rfl | rfl
    · exact ih h2
    · cases h2; rfl

/-- Code following the discipline does what the discipline says. -/
theorem exec_spares {w : World} (hw : GoodWorld w) {f : Frame} {ups : Option (List Nat)} {N : Nat}
    (hf : f.start + N ≤ f.stop) {b : Nat} (hk : ∀ n, n < b → GoodCalls (callsAt w n)) {K : Targets} {l p q : Nat}
    {c : Code} (h : Typed N K l p c q) (hfn : ∀ b, c.HasFn b → GoodCode b) {P : Nat → Prop} (hsp : c.Spares P) (n : Nat) (hn : n ≤ b) {m : VM}
    (g : GoodVM m) (hp : m.ptr = f.stop + p) :
    ShiftsD m (exec w f ups c n) (ExecKeep f P l) (fun r ptr => SigAt f K q r.1 ptr ∧ r.2 ≤ n) := by
  have hS : ∀ l j, FrameKeep f P l j → j < f.stop + l := fun l j hj => hj.lt (by omega)
  induction h generalizing n m with
  | nop => exact .pure g ⟨hp, Nat.le_refl _⟩
  | @instr K l p i a r he hl hc =>
    refine tick_dep g n fun k hnk => ?_
    unfold istep
    rw [bind_assoc]
    refine (step_moves hw (hk k (by omega)) g hp hf he hl hc hfn hsp).dep.bind fun nx m1 g1 h1 => ?_
    rw [pure_bind]
    refine .pure g1 ⟨⟨?_, by omega⟩, fun j hj => hj.keep⟩
    rw [h1.1]
    exact h1.2
  | @ret K l q =>
    refine tick_dep g n fun k hnk => ?_
    show ShiftsD m (pure (Sig.stop, k)) _ _
    exact .pure g ⟨hp, by omega⟩
  | @retTyped K l q b hl =>
    refine tick_dep g n fun k hnk => ?_
    unfold istep
    rw [bind_assoc]
    refine (returnCheck_moves (S := FrameKeep f P l) g (fun j hj => by have := hS _ j hj; omega)).dep.bind
      fun nx m1 g1 h1 => ?_
    rw [pure_bind]
    refine .pure g1 ⟨⟨?_, by omega⟩, fun j hj => hj.keep⟩
    rw [h1.1]
    show m1.ptr = f.stop + 1
    omega
  | @seq K l p q r a b' h1 h2 ih1 ih2 =>
    refine (ih1 (fun b hb => hfn b (.inl hb)) hsp.1 n hn g hp).bind fun s m1 g1 hs => ?_
    obtain ⟨s, k⟩ := s
    cases s with
    | normal =>
      exact (ih2 (fun b hb => hfn b (.inr hb)) hsp.2 k (by have := hs.2; simp only at this; omega) g1 hs.1).weaken
        fun _ _ h => ⟨⟨h.1, by have := h.2; have := hs.2; simp only at this; omega⟩, fun j hj => hj.same nofun⟩
    | _ => exact .pure g1 ⟨hs, fun j hj => hj⟩
  | @skipIf K l p b' c hl h ih =>
    refine tick_dep g n fun k hnk => ?_
    refine (popBool_moves (S := FrameKeep f P l) g (fun j hj => by have := hS _ j hj; omega)).dep.bind fun x m1 g1 h1 => ?_
    split
    · exact .pure g1 ⟨⟨by show m1.ptr = _; omega, by show k ≤ n; omega⟩, fun j hj => hj.keep⟩
    · exact (ih hfn hsp k (by omega) g1 (by omega)).weaken fun _ _ h =>
        ⟨⟨h.1, by have := h.2; omega⟩, fun j hj => hj.keep⟩
  | @branch K l p q t e hl h1 h2 ih1 ih2 =>
    refine tick_dep g n fun k hnk => ?_
    refine (popBool_moves (S := FrameKeep f P l) g (fun j hj => by have := hS _ j hj; omega)).dep.bind fun x m1 g1 hx => ?_
    split
    · refine ShiftsD.bind (ih1 (fun b hb => hfn b (.inl hb)) hsp.1 k (by omega) g1 (by omega)) fun s m2 g2 hs => ?_
      obtain ⟨s, k'⟩ := s
      have hk' := hs.2
      simp only at hk'
      cases s with
      | normal =>
        exact tick_dep g2 _ fun k'' hk'' => .pure g2
          ⟨⟨⟨hs.1, by simp only at hk'' ⊢; omega⟩, fun j hj => hj.keep⟩, fun j hj => hj⟩
      | _ => exact .pure g2 ⟨⟨⟨hs.1, by simp only; omega⟩, fun j hj => hj.keep⟩, fun j hj => hj⟩
    · exact (ih2 (fun b hb => hfn b (.inr hb)) hsp.2 k (by omega) g1 (by omega)).weaken fun _ _ h =>
        ⟨⟨h.1, by have := h.2; omega⟩, fun j hj => hj.keep⟩
  | @loop K l p q c h ih =>
    show ShiftsD m (iterate (exec w f ups c) (n + 1) n) _ _
    have key : ∀ (d n : Nat), n ≤ b → ∀ (m : VM), GoodVM m → m.ptr = f.stop + p →
        ShiftsD m (iterate (exec w f ups c) d n) (ExecKeep f P l) (fun r ptr => SigAt f K q r.1 ptr ∧ r.2 ≤ n) := by
      intro d
      induction d with
      | zero => intro n _ m g _; exact .timeout g
      | succ d ihd =>
        intro n hn m g hp
        refine (ih hfn hsp n hn g hp).bind fun s m1 g1 hs => ?_
        obtain ⟨s, k⟩ := s
        have hk' := hs.2
        simp only at hk'
        cases s with
        | normal =>
          refine tick_dep g1 _ fun k' hkk => ?_
          simp only at hkk
          exact (ihd k' (by omega) m1 g1 hs.1).weaken fun _ _ h =>
            ⟨⟨h.1, by have := h.2; omega⟩, fun j hj => hj.same nofun⟩
        | cont =>
          obtain ⟨hh, e, hptr⟩ := hs.1
          cases e
          exact (ihd k (by omega) m1 g1 hptr).weaken fun _ _ h =>
            ⟨⟨h.1, by have := h.2; omega⟩, fun j hj => hj.same nofun⟩
        | brk =>
          obtain ⟨hh, e, hptr⟩ := hs.1
          cases e
          exact .pure g1 ⟨⟨hptr, hk'⟩, fun j hj => hj⟩
        | exit => exact .pure g1 ⟨hs, fun j hj => hj⟩
        | stop => exact .pure g1 ⟨hs, fun j hj => hj⟩
    exact key (n + 1) n hn m g hp
  | @breakIf K l p b' hl h =>
    refine tick_dep g n fun k hnk => ?_
    refine (popBool_moves (S := FrameKeep f P l) g (fun j hj => by have := hS _ j hj; omega)).dep.bind fun x m1 g1 hx => ?_
    refine .pure g1 ⟨⟨?_, by simp only; omega⟩, fun j hj => hj.keep⟩
    split
    · exact ⟨_, h, by omega⟩
    · show m1.ptr = _; omega
  | @brk K l p q h => exact tick_dep g n fun k hnk => .pure g ⟨⟨_, h, hp⟩, by simp only; omega⟩
  | @cont K l p q h => exact tick_dep g n fun k hnk => .pure g ⟨⟨_, h, hp⟩, by simp only; omega⟩
  | @chain K l p q c h ih =>
    refine (ih hfn hsp n hn g hp).bind fun s m1 g1 hs => ?_
    obtain ⟨s, k⟩ := s
    cases s with
    | exit =>
      obtain ⟨hh, e, hptr⟩ := hs.1
      cases e
      exact .pure g1 ⟨⟨hptr, hs.2⟩, fun j hj => hj⟩
    | _ => exact .pure g1 ⟨hs, fun j hj => hj⟩
  | @exitIf K l p b' hl h =>
    refine tick_dep g n fun k hnk => ?_
    refine (popBool_moves (S := FrameKeep f P l) g (fun j hj => by have := hS _ j hj; omega)).dep.bind fun x m1 g1 hx => ?_
    refine .pure g1 ⟨⟨?_, by simp only; omega⟩, fun j hj => hj.keep⟩
    split
    · exact ⟨_, h, by omega⟩
    · show m1.ptr = _; omega
  | @leave K l p q r c h hc ih =>
    have := ih hfn hsp n hn g hp
    refine ⟨this.good, fun a m' ha => ?_⟩
    obtain ⟨s, k⟩ := a
    cases exec_leaves hc ha
    obtain ⟨h1, h2⟩ := this.ok _ _ ha
    exact ⟨h1, h2.mono fun j hj => hj⟩

theorem exec_moves {w : World} (hw : GoodWorld w) {f : Frame} {ups : Option (List Nat)} {N : Nat}
    (hf : f.start + N ≤ f.stop) {b : Nat} (hk : ∀ n, n < b → GoodCalls (callsAt w n)) {K : Targets} {l p q : Nat}
    {c : Code} (h : Typed N K l p c q) (hfn : ∀ b, c.HasFn b → GoodCode b) (n : Nat) (hn : n ≤ b) {m : VM}
    (g : GoodVM m) (hp : m.ptr = f.stop + p) :
    ShiftsD m (exec w f ups c n) (ExecKeep f (fun _ => False) l) (fun r ptr => SigAt f K q r.1 ptr ∧ r.2 ≤ n) :=
  exec_spares hw hf hk h hfn c.spares_none n hn g hp

/-! ## Calls -/

theorem Typed.scoped {N : Nat} {K : Targets} {l p q : Nat} {c : Code} (h : Typed N K l p c q) :
    Scoped K.brk.isSome K.cont.isSome K.exit.isSome c := by
  induction h with
  | nop => trivial
  | instr => trivial
  | ret => trivial
  | retTyped => trivial
  | seq _ _ h1 h2 => exact ⟨h1, h2⟩
  | skipIf _ _ h => exact h
  | branch _ _ _ h1 h2 => exact ⟨h1, h2⟩
  | loop _ h => exact h
  | breakIf _ h => show Option.isSome _ = true; rw [h]; rfl
  | brk h => show Option.isSome _ = true; rw [h]; rfl
  | cont h => show Option.isSome _ = true; rw [h]; rfl
  | chain _ h => exact h
  | exitIf _ h => show Option.isSome _ = true; rw [h]; rfl
  | leave _ _ ih => exact ih

section
variable {w : World} {m : VM} {S : Nat → Prop}

theorem get_moves {α : Type} {k : VM → V α} {P : α → Nat → Prop} (h : Shifts m (k m) S P) :
    Shifts m (V.get >>= k) S P := ⟨h.good, h.ok⟩

/-- A function body leaves one value. -/
theorem loop_moves (hw : GoodWorld w) {n : Nat} (hk : ∀ j, j < n → GoodCalls (callsAt w j)) {bc : Bytecode}
    (hb : GoodCode bc) {f : Frame} (ups : Option (List Nat)) (hf : f.start + bc.slotCount ≤ f.stop) (g : GoodVM m)
    (hp : m.ptr = f.stop) : Shifts m (loop w n bc f ups 0) (FrameKeep f (fun _ => False) 0) (fun _ p => p = f.stop + 1) := by
  cases hb with
  | @mk _ c layout typed fns =>
    have hs : Scoped false false false c := typed.scoped
    rw [loop_scoped layout hs n]
    have h : Shifts m (exec w f ups c n) (FrameKeep f (fun _ => False) 0) (fun r ptr => SigAt f {} 1 r.1 ptr ∧ r.2 ≤ n) := by
      have := exec_moves hw hf hk typed fns n (Nat.le_refl _) g hp (ups := ups)
      exact ⟨this.good, fun r m' hr => ⟨(this.ok r m' hr).1, (this.ok r m' hr).2.mono fun j hj => hj.more⟩⟩
    refine h.bind fun r m1 g1 h1 => ?_
    obtain ⟨s, k⟩ := r
    cases s with
    | normal => cases k with
      | zero => exact .timeout g1
      | succ k => exact .pure g1 h1.1
    | brk => obtain ⟨_, e, _⟩ := h1.1; cases e
    | cont => obtain ⟨_, e, _⟩ := h1.1; cases e
    | exit => obtain ⟨_, e, _⟩ := h1.1; cases e
    | stop => cases k <;> exact .pure g1 h1.1

theorem execute_moves (hw : GoodWorld w) {n : Nat} (hk : ∀ j, j < n → GoodCalls (callsAt w j)) {bc : Bytecode}
    (hb : GoodCode bc) {f : Frame} (ups : Option (List Nat)) (hf : f.start + bc.slotCount ≤ f.stop) (g : GoodVM m)
    (hp : m.ptr = f.stop) :
    Shifts m (execute w n bc f ups) (FrameKeep f (fun _ => False) 0) (fun v p => p = f.stop ∧ GoodValue v) := by
  have hS : ∀ j, FrameKeep f (fun _ => False) 0 j → j < f.stop := fun j hj => by have := hj.lt (by omega); omega
  cases n with
  | zero => rw [execute]; exact .timeout g
  | succ n =>
    rw [execute]
    refine get_moves ?_
    refine (loop_moves hw (fun j hj => hk j (by omega)) hb ups hf g hp).bind fun _ m1 g1 h1 => ?_
    unfold finishExecute
    refine get_moves ?_
    rw [if_neg (by rintro ⟨_, h⟩; omega)]
    exact (pop_moves g1 (fun j hj => by have := hS j hj; omega)).weaken fun v p h => ⟨by omega, h.2⟩

theorem callScript_moves (hw : GoodWorld w) {n : Nat} (hk : ∀ j, j < n → GoodCalls (callsAt w j)) {bc : Bytecode}
    (hb : GoodCode bc) (ups : Option (List Nat)) (argc : Nat) {receiver : Option Value}
    (hr : ∀ v, receiver = some v → GoodValue v) (g : GoodVM m) (hS : ∀ j, S j → j + argc + 1 < m.ptr) :
    Shifts m (callScript w n argc receiver bc ups) S (fun v p => p + argc + 1 = m.ptr ∧ GoodValue v) := by
  cases n with
  | zero => rw [callScript]; exact .timeout g
  | succ n =>
    rw [callScript]
    refine (reserve_moves g w _).bind fun f m1 g1 h1 => ?_
    split
    · exact .panic g1
    · rename_i hlt
      have hsize : f.start - (argc + 1) + bc.slotCount ≤ f.stop := by
        obtain ⟨a, b, c⟩ := h1
        split at b <;> omega
      have hs2 : ∀ j, S j → j < f.start - (argc + 1) := fun j hj => by have := hS j hj; omega
      have hrec : Shifts m1 (setReceiver { start := f.start - (argc + 1), stop := f.stop } receiver) S
          (fun _ p => p = m1.ptr) := by
        cases receiver with
        | none => exact .pure g1 rfl
        | some r =>
          exact frameSet_moves g1 0 (hr r rfl) (by show f.stop ≤ _; omega) (fun j hj _ h => by have := hs2 j hj; simp only at this h; omega)
      refine hrec.bind fun _ m2 g2 h2 => ?_
      refine ((execute_moves hw (fun j hj => hk j (by omega)) hb ups hsize g2 (by show _ = f.stop; omega)).mono
        (fun j hj => .inl (hs2 j hj)) (fun _ _ h => h)).bind fun v m3 g3 h3 => ?_
      refine (release_moves g3 w h3.1 hs2).bind fun _ m4 g4 h4 => ?_
      exact .pure g4 ⟨by have := h4.1; simp only at this; omega, h3.2⟩

theorem runNative_moves (hw : GoodWorld w) (i : Nat) {args : List Value} (ha : ∀ v ∈ args, GoodValue v) (g : GoodVM m) :
    Shifts m (runNative w i args) S (fun v p => p = m.ptr ∧ GoodValue v) := by
  have := hw.native i args m.heap ha g.heap
  refine ⟨{ g with heap := this.1 }, fun v m' h => ?_⟩
  unfold runNative at h
  have h1 : (w.native i args m.heap).1 = .ok v := congrArg Prod.fst h
  have h2 := congrArg Prod.snd h
  simp only at h2
  subst h2
  exact ⟨⟨rfl, this.2 v h1⟩, fun j hj => ⟨.inl rfl, id⟩⟩

theorem callNative_moves (hw : GoodWorld w) (argc : Nat) {receiver : Option Value}
    (hr : ∀ v, receiver = some v → GoodValue v) (i : Nat) (g : GoodVM m) (hS : ∀ j, S j → j + argc + 1 < m.ptr) :
    Shifts m (callNative w argc receiver i) S (fun v p => p + argc + 1 = m.ptr ∧ GoodValue v) := by
  unfold callNative
  refine (popCount_moves g (argc + 1) (fun j hj => by have := hS j hj; omega)).bind fun args m1 g1 h1 => ?_
  refine (runNative_moves hw i ?_ g1).weaken fun v p h => ⟨by omega, h.2⟩
  intro v hv
  cases receiver with
  | none => exact h1.2.1 v hv
  | some r =>
    rcases List.mem_or_eq_of_mem_set hv with h | h
    · exact h1.2.1 v h
    · exact h ▸ hr r rfl

end

theorem callTarget_good {v : Value} (h : GoodValue v) :
    GoodValue (callTarget v).1 ∧ ∀ r, (callTarget v).2 = some r → GoodValue r := by
  cases v with
  | fnBound r f => exact ⟨h.2, fun x hx => by cases hx; exact h.1⟩
  | _ => exact ⟨h, fun x hx => by cases hx⟩

/-- The calls of a machine with good natives and modules. -/
theorem calls_good {w : World} (hw : GoodWorld w) (n : Nat) : GoodCalls (callsAt w n) := by
  induction n using Nat.strongRecOn with
  | ind n ih =>
    cases n with
    | zero =>
      exact ⟨fun argc m S g _ => by show Shifts m (callFn w 0 argc) _ _; rw [callFn]; exact .timeout g,
        fun argc c o m S g _ _ => by show Shifts m (callCtor w 0 argc c o) _ _; rw [callCtor]; exact .timeout g,
        fun bc e m S g _ _ _ _ => by show Shifts m (runModule w 0 bc e) _ _; rw [runModule]; exact .timeout g⟩
    | succ n =>
      refine ⟨fun argc m S g hS => ?_, fun argc c o m S g ho hS => ?_, fun bc e m S g hb hz he hS => ?_⟩
      · show Shifts m (callFn w (n + 1) argc) _ _
        rw [callFn]
        refine (peek_moves g argc).bind fun t m1 g1 h1 => ?_
        have hS1 : ∀ j, S j → j + argc + 1 < m1.ptr := fun j hj => by have := hS j hj; omega
        obtain ⟨hf, hr⟩ := callTarget_good h1.2.1
        refine Shifts.bind (P := fun v p => p + argc + 1 = m1.ptr ∧ GoodValue v) ?_ fun v m2 g2 h2 =>
          (push_moves g2 h2.2 (fun j hj => by have := hS1 j hj; omega)).weaken fun _ p h => by omega
        cases hc : callTarget t with
        | mk fn receiver =>
          rw [hc] at hf hr
          cases fn with
          | fnClosure bc name id us => exact callScript_moves hw (fun j hj => ih j (by omega)) hf (some us) argc hr g1 hS1
          | fnScript bc name id => exact callScript_moves hw (fun j hj => ih j (by omega)) hf none argc hr g1 hS1
          | fnNative i => exact callNative_moves hw argc hr i g1 hS1
          | cls c =>
            have hn := newObject_good g1.heap c
            refine (onHeap_moves (P := fun v q => q = m1.ptr ∧ GoodValue v) g1 hn.1 ⟨rfl, hn.2⟩).bind fun o m2 g2 h2 => ?_
            exact ((ih n (by omega)).callCtor argc c o m2 S g2 h2.2 (fun j hj => by have := hS1 j hj; omega)).weaken
              fun _ p h => ⟨by omega, h.2⟩
          | _ => exact .err g1
      · show Shifts m (callCtor w (n + 1) argc c o) _ _
        rw [callCtor]
        refine get_moves ?_
        refine Shifts.bind (P := fun v p => p + argc = m.ptr ∧ GoodValue v) ?_ fun v m2 g2 h2 =>
          (pop_moves g2 (fun j hj => by have := hS j hj; omega)).bind fun _ m3 g3 h3 => .pure g3 ⟨by omega, h2.2⟩
        split
        · rename_i new hnew
          refine (poke_moves g argc (v := .fnBound o new) ⟨ho, method_good g.heap hnew⟩
            (fun j hj => by have := hS j hj; omega)).bind fun _ m1 g1 h1 => ?_
          refine ((ih n (by omega)).callFn argc m1 S g1 (fun j hj => by have := hS j hj; omega)).bind fun _ m2 g2 h2 => ?_
          exact (peek_moves g2 0).weaken fun _ p h => ⟨by omega, h.2.1⟩
        · split
          · exact (popCount_moves g argc (fun j hj => by have := hS j hj; omega)).bind fun _ m1 g1 h1 => .pure g1 ⟨h1.1, ho⟩
          · split
            · exact .err g
            · exact .pure g ⟨by omega, ho⟩
      · show Shifts m (runModule w (n + 1) bc e) _ _
        rw [runModule]
        refine (reserve_moves g w _).bind fun f m1 g1 h1 => ?_
        have hs2 : ∀ j, S j → j < f.start := fun j hj => by have := hS j hj; omega
        refine (memSet_moves g1 he (by omega) (fun j hj => by have := hs2 j hj; omega)).bind fun _ m2 g2 h2 => ?_
        refine ((execute_moves hw (fun j hj => ih j (by omega)) hb none (by omega) g2 (by omega)).mono
          (fun j hj => .inl (hs2 j hj)) (fun _ _ h => h)).bind fun v m3 g3 h3 => ?_
        refine (release_moves g3 w h3.1 hs2).bind fun _ m4 g4 h4 => ?_
        exact .pure g4 ⟨by omega, h3.2⟩

end Dice
