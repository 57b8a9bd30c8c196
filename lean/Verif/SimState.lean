import Verif.SimInv
import Verif.SimRel

/-!
# A function of the machine in the middle of its work

`St` relates the state of the evaluator and that of the machine while a function runs: the variables of the function in
its slots, the operands on the stack, the cells of the captured variables.
-/

namespace Dice.Sim

open Src (SEnv State)

/-! ## The static environment -/

/-- Everything that code generation does with an environment. -/
def Step (g g' : Env) : Prop :=
  (FlagInv g → FlagInv g') ∧ SlotRel g g' ∧ Below g g' ∧ g'.kinds = g.kinds

theorem stepRel : EnvRel Step where
  refl g := ⟨flagRel.refl g, slotRel.refl g, belowRel.refl g, kindsRel.refl g⟩
  trans h1 h2 := ⟨flagRel.trans h1.1 h2.1, slotRel.trans h1.2.1 h2.2.1, belowRel.trans h1.2.2.1 h2.2.2.1,
    kindsRel.trans h1.2.2.2 h2.2.2.2⟩
  pushScope h := ⟨flagRel.pushScope h, slotRel.pushScope h, belowRel.pushScope h, kindsRel.pushScope h⟩
  popScope h := ⟨flagRel.popScope h, slotRel.popScope h, belowRel.popScope h, kindsRel.popScope h⟩
  addLocal h := ⟨flagRel.addLocal h, slotRel.addLocal h, belowRel.addLocal h, kindsRel.addLocal h⟩
  setState g x st := ⟨flagRel.setState g x st, slotRel.setState g x st, belowRel.setState g x st, kindsRel.setState g x st⟩
  setTemps g n := ⟨flagRel.setTemps g n, slotRel.setTemps g n, belowRel.setTemps g n, kindsRel.setTemps g n⟩
  setCallDepth h := ⟨flagRel.setCallDepth h, slotRel.setCallDepth h, belowRel.setCallDepth h, kindsRel.setCallDepth h⟩
  resolve h := ⟨flagRel.resolve h, slotRel.resolve h, belowRel.resolve h, kindsRel.resolve h⟩
  fn h := ⟨flagRel.fn h.1, slotRel.fn h.2.1, belowRel.fn h.2.2.1, kindsRel.fn h.2.2.2⟩

/-- What is fixed while a function runs: its frame, its captured variables as cells, the variables and the memory below
its frame, the environments of the enclosing functions, its captured variables as locations, and what `return` means
in it. -/
structure Cx where
  f : Frame
  ups : Option (List Nat)
  lam0 : Nat → Option Nat
  low : Nat → Value
  segs : List SEnv
  locs : Nat → Option Nat
  role : Src.Role

def Cx.out (C : Cx) : SEnv := C.segs.flatten

/-- The locations of the variables that live on the stack. -/
def Cx.lam (C : Cx) (seg : SEnv) (p : Nat) : Option Nat :=
  if p < C.f.start then C.lam0 p else slotLoc seg (p - C.f.start)

/-- The static environment belongs to the function. -/
structure Good (C : Cx) (g : Env) : Prop where
  inv : StackInv g
  flags : FlagInv g
  outer : OuterMatches g.tail C.segs
  kind : ∃ k, g.kind = some k ∧ roleOf k = C.role

/-- The static environment at the end of a construct: its captures and marked variables are accounted for. -/
structure Dest (C : Cx) (K : Nat → Prop) (g : Env) : Prop where
  locs : ∀ c r i d l, g = c :: r → c.upvalues[i]? = some d → locOf r C.segs d = some l → C.locs i = some l
  flags : ∀ s, g.Flagged s → K s
  slots : g.slotCount ≤ 256
  captures : ∀ c r, g = c :: r → c.upvalues.length ≤ 256
  room : C.f.start + g.slotCount ≤ C.f.stop

theorem Good.step {C : Cx} {g g' : Env} (h : Good C g) (hs : Step g g') : Good C g' := by
  obtain ⟨h1, h2, h3, h4⟩ := hs
  refine ⟨(h2 h.inv).1, h1 h.flags, ?_, ?_⟩
  · match g, g', h3 with
    | [], [], _ => exact h.outer
    | _ :: _, _ :: _, h3 => exact h.outer.mono h3.2
  · have : g'.kind = g.kind := by rw [kind_kinds, kind_kinds, h4]
    rw [this]; exact h.kind

theorem Dest.back {C : Cx} {K : Nat → Prop} {g g' : Env} (h : Dest C K g') (hs : Step g g') (inv : StackInv g)
    (hf : ∀ s, g.Flagged s → K s) : Dest C K g := by
  obtain ⟨h1, h2, h3, h4⟩ := hs
  have hle := (h2 inv).2.top
  refine ⟨?_, hf, Nat.le_trans hle h.slots, ?_, by have := h.room; omega⟩
  · rintro c r i d l rfl hi hl
    match g', h3 with
    | c' :: r', h3 => exact h.locs c' r' i d l rfl (prefix_getElem? h3.1 hi) (locOf_mono h3.2 hl)
  · rintro c r rfl
    match g', h3 with
    | c' :: r', h3 =>
      exact Nat.le_trans h3.1.length_le (h.captures c' r' rfl)

theorem Dest.gen {C : Cx} {K : Nat → Prop} {g g' : Env} {nd : Node} {c : Code} (h : Dest C K g') (hg : Gen g nd c g')
    (inv : StackInv g) : Dest C K g :=
  h.back (hg.rel stepRel) inv fun s hs => h.flags s ((hg.widens inv).2.2 s hs)

theorem Good.gen {C : Cx} {g g' : Env} {nd : Node} {c : Code} (h : Good C g) (hg : Gen g nd c g') : Good C g' :=
  h.step (hg.rel stepRel)

theorem Dest.slot {C : Cx} {K : Nat → Prop} {g : Env} {s : Nat} (h : Dest C K g) (hs : s < g.slotCount) : s < 256 := by
  have := h.slots; omega

/-! ## Worlds -/

/-- What grows while the program runs: the cells of captured variables, the functions, the variables. -/
structure Wd where
  mu : Nat → Option Nat
  kap : List Value
  seg : SEnv

structure Wd.Le (n : Nat) (W W' : Wd) : Prop where
  mu : ∀ l a, W.mu l = some a → W'.mu l = some a
  kap : W.kap <+: W'.kap
  seg : ∃ ext, W'.seg = ext ++ W.seg ∧ ∀ x l, (x, l) ∈ ext → n ≤ l
  fresh : ∀ l, l < n → W.mu l = none → W'.mu l ≠ none → ∃ s, slotLoc W.seg s = some l

theorem Wd.Le.refl (n : Nat) (W : Wd) : W.Le n W :=
  ⟨fun _ _ h => h, List.prefix_refl _, ⟨[], rfl, by simp⟩, fun _ _ h1 h2 => absurd h1 h2⟩

theorem Wd.Le.trans {n n' : Nat} (hn : n ≤ n') {W W1 W2 : Wd} (h1 : W.Le n W1) (h2 : W1.Le n' W2) : W.Le n W2 := by
  obtain ⟨e1, hs1, hl1⟩ := h1.seg
  obtain ⟨e2, hs2, hl2⟩ := h2.seg
  refine ⟨fun l a h => h2.mu l a (h1.mu l a h), h1.kap.trans h2.kap, ⟨e2 ++ e1, ?_, ?_⟩, ?_⟩
  · rw [hs2, hs1, List.append_assoc]
  · intro x l hx
    rcases List.mem_append.1 hx with hx | hx
    · exact Nat.le_trans hn (hl2 x l hx)
    · exact hl1 x l hx
  · intro l hl h0 hne
    by_cases hm : W1.mu l = none
    · obtain ⟨s, hs⟩ := h2.fresh l (by omega) hm hne
      rw [hs1] at hs
      rcases slotLoc_append_inv hs with h | ⟨-, x, hx⟩
      · exact ⟨s, h⟩
      · have := hl1 x l hx; omega
    · exact h1.fresh l hl h0 hm

/-- The end of a scope. -/
theorem Wd.Le.drop {n : Nat} {W W' : Wd} (h : W.Le n W') : W.Le n { W' with seg := W.seg } :=
  ⟨h.mu, h.kap, ⟨[], rfl, by simp⟩, h.fresh⟩

/-! ## Operands -/

/-- The operands of the function on the stack, the topmost first. -/
inductive Temps (κ : List Value) (mem : Nat → Value) (base : Nat) : List Value → Nat → Prop where
  | nil : Temps κ mem base [] base
  | cons {v : Value} {ts : List Value} {q : Nat} (hv : VRel κ v (mem q)) (h : Temps κ mem base ts q) :
      Temps κ mem base (v :: ts) (q + 1)

namespace Temps
variable {κ κ' : List Value} {mem mem' : Nat → Value} {base ptr : Nat} {ts : List Value}

theorem ptr_eq (h : Temps κ mem base ts ptr) : ptr = base + ts.length := by
  induction h with
  | nil => rfl
  | cons _ _ ih => simp only [List.length_cons]; omega

theorem mono (h : Temps κ mem base ts ptr) (hk : κ <+: κ') (hm : ∀ p, base ≤ p → p < ptr → mem' p = mem p) :
    Temps κ' mem' base ts ptr := by
  induction h with
  | nil => exact .nil
  | cons hv h ih =>
    have := h.ptr_eq
    refine .cons ?_ (ih fun p h1 h2 => hm p h1 (by omega))
    rw [hm _ (by omega) (by omega)]; exact hv.mono hk

theorem congr (h : Temps κ mem base ts ptr) (hm : ∀ p, base ≤ p → p < ptr → mem' p = mem p) : Temps κ mem' base ts ptr :=
  h.mono (List.prefix_refl _) hm

theorem get (h : Temps κ mem base ts ptr) {i : Nat} {v : Value} (hi : ts[i]? = some v) :
    i < ptr - base ∧ VRel κ v (mem (ptr - i - 1)) := by
  induction h generalizing i with
  | nil => cases hi
  | @cons u ts q hv h ih =>
    have := h.ptr_eq
    cases i with
    | zero => cases hi; exact ⟨by omega, by simpa using hv⟩
    | succ i =>
      obtain ⟨h1, h2⟩ := ih (i := i) (by simpa using hi)
      refine ⟨by omega, ?_⟩
      have e : q + 1 - (i + 1) - 1 = q - i - 1 := by omega
      rw [e]; exact h2

theorem uncons {v : Value} (h : Temps κ mem base (v :: ts) ptr) :
    base < ptr ∧ VRel κ v (mem (ptr - 1)) ∧ Temps κ mem base ts (ptr - 1) := by
  have := h.ptr_eq
  simp only [List.length_cons] at this
  cases h with
  | cons hv h => exact ⟨by omega, hv, h⟩

theorem split {us : List Value} (h : Temps κ mem base (us ++ ts) ptr) :
    Temps κ mem base ts (ptr - us.length) ∧ us.length ≤ ptr - base ∧ Temps κ mem (ptr - us.length) us ptr := by
  induction us generalizing ptr with
  | nil => exact ⟨by simpa using h, Nat.zero_le _, .nil⟩
  | cons u us ih =>
    cases h with
    | @cons _ _ q hv h =>
      obtain ⟨h1, h2, h3⟩ := ih h
      have := h1.ptr_eq
      simp only [List.length_cons]
      have e : q + 1 - (us.length + 1) = q - us.length := by omega
      rw [e]
      exact ⟨h1, by omega, .cons hv h3⟩

end Temps

/-! ## States -/

/-- The parts of the relation that do not depend on where the variables are. -/
structure Rest (C : Cx) (W : Wd) (ts : List Value) (σ : State) (m : VM) : Prop where
  ups : ∀ i l, C.locs i = some l → ∃ us a, C.ups = some us ∧ us[i]? = some a ∧ W.mu l = some a
  low : ∀ p, p < C.f.start → C.lam0 p = none → m.mem p = C.low p
  temps : Temps W.kap m.mem C.f.stop ts m.ptr
  room : ts ≠ [] → m.ptr ≤ maxStack
  capt : ∀ l a, W.mu l = some a → ∃ cl ∈ σ.fns, ∃ x, (x, l) ∈ cl.env
  wide : C.f.start ≤ C.f.stop

structure St (C : Cx) (K : Nat → Prop) (W : Wd) (ts : List Value) (σ : State) (m : VM) : Prop where
  inv : Inv (C.lam W.seg) W.mu W.kap σ m
  rest : Rest C W ts σ m
  marked : ∀ s l, slotLoc W.seg s = some l → W.mu l ≠ none → K s
  fits : C.f.start + W.seg.length ≤ C.f.stop

section
variable {C : Cx} {K : Nat → Prop} {W : Wd} {ts : List Value} {σ : State} {m : VM}

theorem Cx.lam_slot (C : Cx) {seg : SEnv} {s l : Nat} (h : slotLoc seg s = some l) : C.lam seg (C.f.start + s) = some l := by
  unfold Cx.lam
  rw [if_neg (by omega), Nat.add_sub_cancel_left]; exact h

theorem Cx.lam_cases {C : Cx} {seg : SEnv} {p l : Nat} (h : C.lam seg p = some l) :
    (p < C.f.start ∧ C.lam0 p = some l) ∨ ∃ s, p = C.f.start + s ∧ slotLoc seg s = some l ∧ s < seg.length := by
  unfold Cx.lam at h
  split at h
  · exact .inl ⟨‹_›, h⟩
  · exact .inr ⟨p - C.f.start, by omega, h, slotLoc_lt h⟩

theorem St.lam_lt (h : St C K W ts σ m) {p l : Nat} (hp : C.lam W.seg p = some l) :
    p < C.f.start + W.seg.length ∧ p < C.f.stop := by
  have := h.fits
  rcases Cx.lam_cases hp with ⟨h1, -⟩ | ⟨s, rfl, -, h2⟩
  · omega
  · omega

theorem Rest.ptr_eq (h : Rest C W ts σ m) : m.ptr = C.f.stop + ts.length := h.temps.ptr_eq

theorem St.ptr_eq (h : St C K W ts σ m) : m.ptr = C.f.stop + ts.length := h.rest.ptr_eq

theorem Rest.stack (h : Rest C W ts σ m) {mem : Nat → Value} {ptr : Nat} {ts' : List Value}
    (hm : ∀ p, p < C.f.start → C.lam0 p = none → mem p = m.mem p) (ht : Temps W.kap mem C.f.stop ts' ptr)
    (hr : ts' ≠ [] → ptr ≤ maxStack) : Rest C W ts' σ { m with mem := mem, ptr := ptr } :=
  { h with low := fun p hp h0 => (hm p hp h0).trans (h.low p hp h0), temps := ht, room := hr }

/-- Memory may change where no variables of the function live. -/
theorem St.stack (h : St C K W ts σ m) {mem : Nat → Value} {ptr : Nat} {ts' : List Value}
    (hm : ∀ p, p < C.f.start + W.seg.length → mem p = m.mem p) (ht : Temps W.kap mem C.f.stop ts' ptr)
    (hr : ts' ≠ [] → ptr ≤ maxStack) : St C K W ts' σ { m with mem := mem, ptr := ptr } :=
  { h with
    inv := h.inv.scratch ptr fun p _ hp => hm p (h.lam_lt hp).1
    rest := h.rest.stack (fun p hp _ => hm p (by omega)) ht hr }

theorem St.weaken {K' : Nat → Prop} (h : St C K W ts σ m) (hk : ∀ s, s < W.seg.length → K s → K' s) : St C K' W ts σ m :=
  { h with marked := fun s l hs hl => hk s (slotLoc_lt hs) (h.marked s l hs hl) }

/-! ## The stack -/

theorem St.push (h : St C K W ts σ m) {v u : Value} (hv : VRel W.kap v u) :
    Does (push u) m fun _ m' => St C K W (v :: ts) σ m' := by
  have hp := h.ptr_eq
  have hf := h.fits
  by_cases hr : m.ptr < maxStack
  · refine .of (push_room hr) (h.stack (fun p hlt => upd_other (by omega)) (.cons ?_ (h.rest.temps.congr ?_)) (fun _ => hr))
    · rw [upd_same]; exact hv
    · exact fun p _ hlt => upd_other (by omega)
  · exact .inl ⟨"index out of bounds", m, by unfold Dice.push; rw [if_neg hr], by omega⟩

theorem St.top {v : Value} (h : St C K W (v :: ts) σ m) : ∃ u, m.Top u ∧ VRel W.kap v u := by
  obtain ⟨h1, h2, -⟩ := h.rest.temps.uncons
  exact ⟨_, ⟨by omega, h.rest.room (by simp), rfl⟩, h2⟩

theorem St.dropped {v : Value} (h : St C K W (v :: ts) σ m) : St C K W ts σ m.drop := by
  obtain ⟨h1, h2, h3⟩ := h.rest.temps.uncons
  have hf := h.fits
  have hr := h.rest.room (by simp)
  refine h.stack (fun p hlt => upd_other (by omega)) (h3.congr fun p _ hlt => upd_other (by omega)) (fun _ => by omega)

theorem St.pop {v : Value} (h : St C K W (v :: ts) σ m) :
    Does pop m fun u m' => VRel W.kap v u ∧ St C K W ts σ m' := by
  obtain ⟨u, h1, h2⟩ := h.top
  exact .of (pop_top h1) ⟨h2, h.dropped⟩

theorem St.peek {i : Nat} {v : Value} (h : St C K W ts σ m) (hi : ts[i]? = some v) :
    Does (peek i) m fun u m' => VRel W.kap v u ∧ m' = m := by
  obtain ⟨h1, h2⟩ := h.rest.temps.get hi
  have hr := h.rest.room (by rintro rfl; cases hi)
  refine .of (b := m.mem (m.ptr - i - 1)) (m1 := m) ?_ ⟨h2, rfl⟩
  unfold Dice.peek
  rw [if_pos (by omega)]

theorem St.poke {v v' u : Value} (h : St C K W (v :: ts) σ m) (hv : VRel W.kap v' u) :
    Does (poke 0 u) m fun _ m' => St C K W (v' :: ts) σ m' := by
  obtain ⟨h1, h2, h3⟩ := h.rest.temps.uncons
  obtain ⟨u0, h4, -⟩ := h.top
  have hf := h.fits
  refine .of (poke_top h4) ?_
  have ht : Temps W.kap (upd m.mem (m.ptr - 1) u) C.f.stop (v' :: ts) m.ptr := by
    have e : m.ptr = m.ptr - 1 + 1 := by omega
    rw [e]
    refine .cons ?_ (h3.congr fun p _ hlt => ?_)
    · rw [show m.ptr - 1 + 1 - 1 = m.ptr - 1 from by omega, upd_same]; exact hv
    · exact upd_other (by omega)
  exact h.stack (fun p hlt => upd_other (by omega)) ht fun _ => h.rest.room (by simp)

/-- The values of the topmost operands, in the order in which they were pushed. -/
theorem Temps.range {κ : List Value} {mem : Nat → Value} {base ptr : Nat} {us : List Value}
    (h : Temps κ mem base us ptr) : All₂ (VRel κ) us.reverse (memRange mem base us.length) := by
  induction h with
  | nil => exact .nil
  | @cons v ts q hv h ih =>
    have hp := h.ptr_eq
    rw [List.reverse_cons, List.length_cons]
    unfold memRange at ih ⊢
    rw [List.range_succ, List.map_append]
    refine ih.snoc ?_
    show VRel κ v (mem (base + ts.length))
    rw [← hp]; exact hv

theorem St.popCount {us : List Value} (h : St C K W (us ++ ts) σ m) :
    Does (popCount us.length) m fun vs m' => All₂ (VRel W.kap) us.reverse vs ∧ St C K W ts σ m' := by
  by_cases hr : m.ptr ≤ maxStack
  · obtain ⟨h1, h2, h3⟩ := h.rest.temps.split
    have hf := h.fits
    refine .of (b := memRange m.mem (m.ptr - us.length) us.length)
      (m1 := { m with mem := memClear m.mem (m.ptr - us.length) m.ptr, ptr := m.ptr - us.length }) ?_ ⟨h3.range, ?_⟩
    · unfold Dice.popCount
      rw [if_pos ⟨by omega, hr⟩]
    · have := h1.ptr_eq
      refine h.stack (fun p hlt => ?_) (h1.congr fun p _ hlt => ?_) (fun _ => by omega)
      · unfold memClear; rw [if_neg (by omega)]
      · unfold memClear; rw [if_neg (by omega)]
  · exact .inl ⟨"index out of bounds", m, by unfold Dice.popCount; rw [if_neg (by omega)], by omega⟩

/-! ## The heap and the globals -/

theorem Rest.other (h : Rest C W ts σ m) {σ' : State} {m' : VM} (h1 : σ'.fns = σ.fns) (h2 : m'.mem = m.mem)
    (h3 : m'.ptr = m.ptr) : Rest C W ts σ' m' :=
  { ups := h.ups, wide := h.wide, low := by rw [h2]; exact h.low, temps := by rw [h2, h3]; exact h.temps
    room := by rw [h3]; exact h.room, capt := by rw [h1]; exact h.capt }

theorem St.data (h : St C K W ts σ m) {a b : Heap} (hh : HeapRel W.kap a b) :
    St C K W ts { σ with heap := a } { m with heap := b } :=
  { inv := h.inv.data hh, rest := h.rest.other rfl rfl rfl, marked := h.marked, fits := h.fits }

theorem St.global (h : St C K W ts σ m) {a b : ValueMap} (hh : MapRel W.kap a b) :
    St C K W ts { σ with globals := a } { m with globals := b } :=
  { inv := h.inv.global hh, rest := h.rest.other rfl rfl rfl, marked := h.marked, fits := h.fits }

/-! ## Local variables -/

/-- The frame is within the stack, or there is no room for anything. -/
theorem St.frame (h : St C K W ts σ m) : C.f.stop ≤ maxStack ∨ maxStack ≤ m.ptr := by
  have := h.ptr_eq
  omega

theorem Rest.frameGet (h : Rest C W ts σ m) {s : Nat} (hs : C.f.start + s < C.f.stop) :
    Does (frameGet C.f s) m fun u m' => u = m.mem (C.f.start + s) ∧ m' = m := by
  have hp := h.ptr_eq
  by_cases hr : C.f.stop ≤ maxStack
  · refine .of (b := m.mem (C.f.start + s)) (m1 := m) ?_ ⟨rfl, rfl⟩
    unfold Dice.frameGet
    rw [if_pos ⟨hr, hs⟩]
  · exact .inl ⟨"index out of bounds", m, by unfold Dice.frameGet; rw [if_neg (by omega)], by omega⟩

theorem Rest.frameSet (h : Rest C W ts σ m) {s : Nat} {u : Value} (hs : C.f.start + s < C.f.stop) :
    Does (frameSet C.f s u) m fun _ m' => m' = { m with mem := upd m.mem (C.f.start + s) u } := by
  have hp := h.ptr_eq
  by_cases hr : C.f.stop ≤ maxStack
  · refine .of (b := ()) (m1 := { m with mem := upd m.mem (C.f.start + s) u }) ?_ rfl
    unfold Dice.frameSet
    rw [if_pos ⟨hr, hs⟩]
  · exact .inl ⟨"index out of bounds", m, by unfold Dice.frameSet; rw [if_neg (by omega)], by omega⟩

theorem St.readLocal (h : St C K W ts σ m) {s l : Nat} {v : Value} (hs : slotLoc W.seg s = some l)
    (hv : σ.store[l]? = some (some v)) : Does (frameGet C.f s) m fun u m' => VRel W.kap v u ∧ m' = m := by
  have h1 := slotLoc_lt hs
  have h2 := h.fits
  refine (h.rest.frameGet (s := s) (by omega)).mono ?_
  rintro u m' ⟨rfl, rfl⟩
  exact ⟨h.inv.vars _ _ _ (C.lam_slot hs) hv, rfl⟩

theorem Rest.write (h : Rest C W ts σ m) {σ' : State} {m' : VM} {p : Nat} {u : Value} (h1 : σ'.fns = σ.fns)
    (h2 : m'.mem = upd m.mem p u) (h3 : m'.ptr = m.ptr) (hp : p < C.f.stop) (h0 : p < C.f.start → C.lam0 p ≠ none) :
    Rest C W ts σ' m' := by
  have hb := h.ptr_eq
  refine { ups := h.ups, wide := h.wide, low := ?_, temps := ?_, room := by rw [h3]; exact h.room
           capt := by rw [h1]; exact h.capt }
  · intro q hq hn
    rw [h2, upd_other (by rintro rfl; exact h0 hq hn)]
    exact h.low q hq hn
  · rw [h2, h3]
    exact h.temps.congr fun q hq _ => upd_other (by omega)

theorem St.writeLocal (h : St C K W ts σ m) {s l : Nat} {v u : Value} (hs : slotLoc W.seg s = some l)
    (hv : VRel W.kap v u) :
    Does (frameSet C.f s u) m fun _ m' => St C K W ts { σ with store := σ.store.set l (some v) } m' := by
  have h1 := slotLoc_lt hs
  have h2 := h.fits
  refine (h.rest.frameSet (s := s) (by omega)).mono ?_
  rintro _ m' rfl
  exact { inv := h.inv.write (C.lam_slot hs) hv
          rest := h.rest.write rfl rfl rfl (by omega) (fun hlt => by omega)
          marked := h.marked, fits := h.fits }

/-- Writing a slot in which no variable lives. -/
theorem St.setSlot (h : St C K W ts σ m) {s : Nat} {u : Value} (hs : W.seg.length ≤ s) (hlt : C.f.start + s < C.f.stop) :
    Does (frameSet C.f s u) m fun _ m' => St C K W ts σ m' ∧ m'.mem (C.f.start + s) = u := by
  have hp := h.ptr_eq
  refine (h.rest.frameSet (s := s) hlt).mono ?_
  rintro _ m' rfl
  refine ⟨h.stack (fun p hp => upd_other (by omega)) (h.rest.temps.congr fun q hq _ => upd_other (by omega)) h.rest.room, ?_⟩
  exact upd_same _ _ _

/-- A new variable in the next slot. -/
theorem St.alloc (h : St C K W ts σ m) {o : Option Value} (x : String) (hlt : C.f.start + W.seg.length < C.f.stop)
    (ho : ∀ v, o = some v → VRel W.kap v (m.mem (C.f.start + W.seg.length))) :
    St C K { W with seg := (x, σ.store.length) :: W.seg } ts { σ with store := σ.store ++ [o] } m := by
  have hne : ∀ q l, q ≠ C.f.start + W.seg.length →
      (C.lam ((x, σ.store.length) :: W.seg) q = some l ↔ C.lam W.seg q = some l) := by
    intro q l hq
    unfold Cx.lam
    split
    · exact Iff.rfl
    · by_cases hlt : q - C.f.start < W.seg.length
      · rw [show (x, σ.store.length) :: W.seg = [(x, σ.store.length)] ++ W.seg from rfl, slotLoc_append _ _ _ hlt]
      · constructor
        · intro h
          have := slotLoc_lt h
          simp only [List.length_cons] at this
          omega
        · intro h
          have := slotLoc_lt h
          omega
  have hnone : ∀ l, C.lam W.seg (C.f.start + W.seg.length) ≠ some l := by
    intro l hl
    have := (h.lam_lt hl).1
    omega
  refine { inv := h.inv.alloc (p := C.f.start + W.seg.length) ?_ hne hnone ho, rest := ?_, marked := ?_, fits := ?_ }
  · exact C.lam_slot (slotLoc_cons _ _ _)
  · exact { h.rest with }
  · intro s l hs hm
    rcases slotLoc_append_inv (ext := [(x, σ.store.length)]) hs with h1 | ⟨-, y, hy⟩
    · exact h.marked s l h1 hm
    · simp only [List.mem_singleton, Prod.mk.injEq] at hy
      obtain ⟨-, rfl⟩ := hy
      cases ha : W.mu σ.store.length with
      | none => exact absurd ha hm
      | some a => have := h.inv.muBound _ _ ha; omega
  · simp only [List.length_cons]; omega

theorem Wd.le_alloc (W : Wd) (x : String) (n l : Nat) (h : n ≤ l) : W.Le n { W with seg := (x, l) :: W.seg } :=
  ⟨fun _ _ h => h, List.prefix_refl _, ⟨[(x, l)], rfl, by simp; omega⟩, fun _ _ h1 h2 => absurd h1 h2⟩

/-! ## Captured variables -/

theorem Rest.upvalue (h : Rest C W ts σ m) {i l : Nat} (hl : C.locs i = some l) :
    ∃ a, upvalueAt C.ups i m = (.ok a, m) ∧ W.mu l = some a := by
  obtain ⟨us, a, h1, h2, h3⟩ := h.ups i l hl
  refine ⟨a, ?_, h3⟩
  unfold upvalueAt
  rw [h1]
  simp only [h2]
  rfl

theorem St.readCell (h : St C K W ts σ m) {l a : Nat} {v : Value} (ha : W.mu l = some a)
    (hv : σ.store[l]? = some (some v)) : Does (readCell a) m fun u m' => VRel W.kap v u ∧ m' = m := by
  have hp := h.ptr_eq
  by_cases hx : ∃ p, C.lam W.seg p = some l
  · obtain ⟨p, hx⟩ := hx
    obtain ⟨-, h2⟩ := h.inv.opened l a p ha hx
    have hlt := (h.lam_lt hx).2
    by_cases hr : p < maxStack
    · refine .of (b := m.mem p) (m1 := m) ?_ ⟨h.inv.vars p l v hx hv, rfl⟩
      unfold Dice.readCell
      rw [h2]
      simp only [memGet, if_pos hr]
    · refine .inl ⟨"index out of bounds", m, ?_, by omega⟩
      unfold Dice.readCell
      rw [h2]
      simp only [memGet, if_neg hr]
  · obtain ⟨u, h1, h2⟩ := h.inv.closed l a ha (fun p hp => hx ⟨p, hp⟩)
    refine .of (b := u) (m1 := m) ?_ ⟨h2 v hv, rfl⟩
    unfold Dice.readCell
    rw [h1]

theorem St.writeCell (h : St C K W ts σ m) {l a : Nat} {v u : Value} (ha : W.mu l = some a) (hv : VRel W.kap v u) :
    Does (writeCell a u) m fun _ m' => St C K W ts { σ with store := σ.store.set l (some v) } m' := by
  have hp := h.ptr_eq
  by_cases hx : ∃ p, C.lam W.seg p = some l
  · obtain ⟨p, hx⟩ := hx
    obtain ⟨-, h2⟩ := h.inv.opened l a p ha hx
    have hlt := (h.lam_lt hx).2
    by_cases hr : p < maxStack
    · refine .of (b := ()) (m1 := { m with mem := upd m.mem p u }) ?_ ?_
      · unfold Dice.writeCell
        rw [h2]
        simp only [memSet, if_pos hr]
      · refine { inv := h.inv.write hx hv, rest := h.rest.write rfl rfl rfl hlt (fun hs hn => ?_)
                 marked := h.marked, fits := h.fits }
        unfold Cx.lam at hx
        rw [if_pos hs, hn] at hx
        cases hx
    · refine .inl ⟨"index out of bounds", m, ?_, by omega⟩
      unfold Dice.writeCell
      rw [h2]
      simp only [memSet, if_neg hr]
  · have hn : ∀ p, C.lam W.seg p ≠ some l := fun p hp => hx ⟨p, hp⟩
    obtain ⟨u0, h1, -⟩ := h.inv.closed l a ha hn
    refine .of (b := ()) (m1 := { m with cells := m.cells.set a (.closed u) }) ?_ ?_
    · unfold Dice.writeCell
      rw [h1]
    · exact { inv := h.inv.writeClosed ha hn hv, rest := h.rest.other rfl rfl rfl, marked := h.marked, fits := h.fits }

end

end Dice.Sim
