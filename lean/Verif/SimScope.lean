import Verif.SimState
import Verif.BalanceStep

/-!
# The end of scopes and the creation of functions
-/

namespace Dice.Sim

open Src (SEnv State)

section
variable {C : Cx} {K : Nat → Prop} {W : Wd} {ts : List Value} {σ : State} {m : VM} {w : World}

/-! ## Leaving the scopes of variables that no function captures -/

theorem Cx.lam_append (C : Cx) {ext seg : SEnv} {p l : Nat} (h : C.lam seg p = some l) : C.lam (ext ++ seg) p = some l := by
  unfold Cx.lam at h ⊢
  split
  · rw [if_pos ‹_›] at h; exact h
  · rw [if_neg ‹_›] at h
    rw [slotLoc_append _ _ _ (slotLoc_lt h)]; exact h

theorem Cx.lam_append_inv {C : Cx} {ext seg : SEnv} {p l : Nat} (h : C.lam (ext ++ seg) p = some l) :
    C.lam seg p = some l ∨ ∃ s x, p = C.f.start + s ∧ slotLoc (ext ++ seg) s = some l ∧ seg.length ≤ s ∧ (x, l) ∈ ext := by
  unfold Cx.lam at h ⊢
  split at h
  · rw [if_pos ‹_›]; exact .inl h
  · rw [if_neg ‹_›]
    rcases slotLoc_append_inv h with h1 | ⟨h1, x, hx⟩
    · exact .inl h1
    · exact .inr ⟨p - C.f.start, x, by omega, h, h1, hx⟩

theorem Rest.reseg (h : Rest C W ts σ m) (seg : SEnv) : Rest C { W with seg := seg } ts σ m :=
  { ups := h.ups, wide := h.wide, low := h.low, temps := h.temps, room := h.room, capt := h.capt }

/-- Variables end that no function captures. -/
theorem St.leave {K' : Nat → Prop} (h : St C K W ts σ m) {ext seg : SEnv} (hs : W.seg = ext ++ seg)
    (hn : ∀ x l, (x, l) ∈ ext → W.mu l = none) (hk : ∀ s, s < seg.length → K s → K' s) :
    St C K' { W with seg := seg } ts σ m := by
  have hf := h.fits
  have hm := h.marked
  have hi := h.inv
  rw [hs] at hf hm hi
  refine { inv := hi.drop ?_ ?_, rest := h.rest.reseg seg, marked := ?_, fits := ?_ }
  · exact fun p l hp => C.lam_append hp
  · intro p l hp
    rcases Cx.lam_append_inv hp with h1 | ⟨s, x, -, -, -, hx⟩
    · exact .inl h1
    · exact .inr (hn x l hx)
  · intro s l hs' hl
    have hlt := slotLoc_lt hs'
    exact hk s hlt (hm s l (by rw [slotLoc_append _ _ _ hlt]; exact hs') hl)
  · simp only [List.length_append] at hf
    show C.f.start + seg.length ≤ C.f.stop
    omega

/-- A break, `continue` or `return` out of scopes that no function captures from. -/
theorem Rest.uncaptured (h : Rest C W ts σ m) {ρ ρ' ext : SEnv} (he : ρ' = ext ++ ρ)
    (hc : Src.captured σ ρ ρ' = false) : ∀ x l, (x, l) ∈ ext → W.mu l = none := by
  intro x l hx
  cases hm : W.mu l with
  | none => rfl
  | some a =>
    obtain ⟨cl, h1, y, h2⟩ := h.capt l a hm
    subst he
    have : Src.captured σ ρ (ext ++ ρ) = true := by
      unfold Src.captured
      rw [List.any_eq_true]
      refine ⟨(x, l), ?_, ?_⟩
      · rw [List.length_append, Nat.add_sub_cancel, List.take_left']
        · exact hx
        · rfl
      · rw [List.any_eq_true]
        refine ⟨cl, h1, ?_⟩
        rw [List.any_eq_true]
        exact ⟨(y, l), h2, by simp⟩
    rw [this] at hc; cases hc

/-! ## Closing the captured variables of a scope -/

/-- The locations of the variables on the stack while some are closed. -/
def Cx.lamBut (C : Cx) (seg : SEnv) (dead : List Nat) (p : Nat) : Option Nat :=
  if p < C.f.start then C.lam0 p else if p - C.f.start ∈ dead then none else slotLoc seg (p - C.f.start)

/-- The slots that the end of a scope closes. -/
def closing (vs : List ScopeVar) : List Nat := (vs.filter (·.isCaptured)).map (·.slot)

theorem Cx.lamBut_nil (C : Cx) (seg : SEnv) : C.lamBut seg [] = C.lam seg := by
  funext p
  simp [Cx.lamBut, Cx.lam]

theorem Cx.lamBut_cons (C : Cx) (seg : SEnv) (dead : List Nat) (s q l : Nat) :
    C.lamBut seg (s :: dead) q = some l ↔ (q ≠ C.f.start + s ∧ C.lamBut seg dead q = some l) := by
  unfold Cx.lamBut
  by_cases hq : q < C.f.start
  · simp only [if_pos hq]
    exact ⟨fun h => ⟨by omega, h⟩, fun h => h.2⟩
  · simp only [if_neg hq, List.mem_cons]
    by_cases hs : q - C.f.start = s
    · rw [if_pos (.inl hs)]
      exact ⟨(by intro h; cases h), fun h => absurd (by omega) h.1⟩
    · by_cases hd : q - C.f.start ∈ dead
      · rw [if_pos (.inr hd), if_pos hd]
        exact ⟨(by intro h; cases h), (by rintro ⟨-, h⟩; cases h)⟩
      · rw [if_neg (by rintro (h | h); exact hs h; exact hd h), if_neg hd]
        exact ⟨fun h => ⟨by omega, h⟩, fun h => h.2⟩

theorem operand_num (o : Opcode) {n : Nat} (hn : n < 256) (m : VM) : operand (Instr.num o n).operands 0 m = (.ok n, m) := by
  show (Outcome.ok (UInt8.ofNat n).toNat, m) = _
  have : (UInt8.ofNat n).toNat = n := by simp; omega
  rw [this]

theorem closeCell_some {p i a : Nat} {v : Value} (h : findOpen m.cells m.openUps 0 p = some (i, a)) :
    closeCell p v m = (.ok (), { m with cells := m.cells.set a (.closed v), openUps := m.openUps.eraseIdx i }) := by
  unfold closeCell; rw [h]

theorem closeCell_none {p : Nat} {v : Value} (h : findOpen m.cells m.openUps 0 p = none) : closeCell p v m = (.ok (), m) := by
  unfold closeCell; rw [h]

/-- The end of one variable that may be captured. -/
theorem close_one {dead : List Nat} {s l : Nat} (hi : Inv (C.lamBut W.seg dead) W.mu W.kap σ m) (hr : Rest C W ts σ m)
    (hs : slotLoc W.seg s = some l) (hd : s ∉ dead) (hlt : C.f.start + s < C.f.stop) :
    Does (closeUpvalue C.f s) m fun _ m' =>
      Inv (C.lamBut W.seg (s :: dead)) W.mu W.kap σ m' ∧ Rest C W ts σ m' := by
  have hp := hr.ptr_eq
  have hL : C.lamBut W.seg dead (C.f.start + s) = some l := by
    unfold Cx.lamBut
    rw [if_neg (by omega), Nat.add_sub_cancel_left, if_neg hd]; exact hs
  refine (hr.frameGet hlt).bind ?_
  rintro v m1 ⟨rfl, rfl⟩
  refine (hr.frameSet (u := .null) hlt).bind ?_
  rintro _ m2 rfl
  cases ho : findOpen m1.cells m1.openUps 0 (C.f.start + s) with
  | none =>
    refine .of (closeCell_none ho) ⟨?_, ?_⟩
    · have hn : W.mu l = none := by
        cases hm : W.mu l with
        | none => rfl
        | some a =>
          obtain ⟨h1, h2⟩ := hi.opened l a _ hm hL
          exact absurd h2 (findOpen_none ho a h1)
      have hi' : Inv (C.lamBut W.seg (s :: dead)) W.mu W.kap σ m1 := by
        refine hi.drop (fun p l' hp => ((C.lamBut_cons _ _ _ _ _).1 hp).2) ?_
        intro p l' hp
        by_cases he : p = C.f.start + s
        · subst he
          cases hL.symm.trans hp
          exact .inr hn
        · exact .inl ((C.lamBut_cons _ _ _ _ _).2 ⟨he, hp⟩)
      exact hi'.scratch m1.ptr fun p l' hp => upd_other ((C.lamBut_cons _ _ _ _ _).1 hp).1
    · exact hr.write rfl rfl rfl hlt (fun h => by omega)
  | some r =>
    obtain ⟨i, a⟩ := r
    obtain ⟨-, h2, h3⟩ := findOpen_some ho
    rw [Nat.sub_zero] at h2
    obtain ⟨l', h4, h5⟩ := hi.opens a _ (List.mem_of_getElem? h2) h3
    cases hL.symm.trans h4
    refine .of (closeCell_some ho) ⟨?_, ?_⟩
    · exact hi.close hL h5 (C.lamBut_cons _ _ _) h2 .null
    · exact hr.write rfl rfl rfl hlt (fun h => by omega)

theorem close_vars (vs : List ScopeVar) (hi : Inv (C.lam W.seg) W.mu W.kap σ m) (hr : Rest C W ts σ m)
    (hb : ∀ v ∈ vs, v.slot < 256) (hl : ∀ v ∈ vs, v.slot < W.seg.length) (hd : (vs.map (·.slot)).Nodup)
    (hf : C.f.start + W.seg.length ≤ C.f.stop) :
    DoesX w C.f C.ups (closeCode vs) m fun m' =>
      Inv (C.lamBut W.seg (closing vs)) W.mu W.kap σ m' ∧ Rest C W ts σ m' := by
  induction vs with
  | nil => exact .nop ⟨by rw [show closing [] = [] from rfl, C.lamBut_nil]; exact hi, hr⟩
  | cons v vs ih =>
    rw [List.map_cons, List.nodup_cons] at hd
    refine (ih (fun x hx => hb x (.tail _ hx)) (fun x hx => hl x (.tail _ hx)) hd.2).seq ?_
    rintro m1 ⟨h1, h2⟩
    by_cases hv : v.isCaptured = true
    · rw [if_pos hv]
      have e : closing (v :: vs) = v.slot :: closing vs := by simp [closing, hv]
      rw [e]
      obtain ⟨l, hs⟩ := slotLoc_of_lt (hl v (.head _))
      have hlt := hl v (.head _)
      refine .instr ?_
      have key := close_one (C := C) (dead := closing vs) h1 h2 hs ?_ (by omega)
      · have : Does (step w (callsAt w 0) (Instr.num .closeUpvalue v.slot).operands C.f C.ups .closeUpvalue 0) m1
            fun nx m' => nx.sig = .normal ∧ Inv (C.lamBut W.seg (v.slot :: closing vs)) W.mu W.kap σ m' ∧ Rest C W ts σ m' := by
          refine (Does.of (operand_num _ (hb v (.head _)) m1) (P := fun b m' => b = v.slot ∧ m' = m1) ⟨rfl, rfl⟩).bind ?_
          rintro _ _ ⟨rfl, rfl⟩
          exact key.bind fun _ m' h => .pure ⟨rfl, h⟩
        exact this.bind fun nx m' h => .pure h
      · intro hm
        simp only [closing, List.mem_map, List.mem_filter] at hm
        obtain ⟨x, ⟨hx, -⟩, he⟩ := hm
        exact hd.1 (he ▸ List.mem_map_of_mem hx)
    · rw [if_neg hv]
      have e : closing (v :: vs) = closing vs := by simp [closing, hv]
      rw [e]
      exact .nop ⟨h1, h2⟩

/-- The end of a scope. -/
theorem St.closeScope {K' : Nat → Prop} (h : St C K W ts σ m) {ext seg : SEnv} (hs : W.seg = ext ++ seg) (vs : List ScopeVar)
    (hb : ∀ v ∈ vs, v.slot < 256) (hl : ∀ v ∈ vs, seg.length ≤ v.slot ∧ v.slot < W.seg.length) (hd : (vs.map (·.slot)).Nodup)
    (hk : ∀ s, s < seg.length → K s → K' s) (hc : ∀ s, seg.length ≤ s → K s → ∃ v ∈ vs, v.slot = s ∧ v.isCaptured = true) :
    DoesX w C.f C.ups (closeCode vs) m fun m' => St C K' { W with seg := seg } ts σ m' := by
  refine (close_vars vs h.inv h.rest hb (fun v hv => (hl v hv).2) hd h.fits).mono ?_
  rintro m1 ⟨hi, hr⟩
  have hf := h.fits
  have hm := h.marked
  rw [hs] at hf hm hi
  have hdead : ∀ s, s ∈ closing vs → seg.length ≤ s := by
    intro s hs
    simp only [closing, List.mem_map, List.mem_filter] at hs
    obtain ⟨v, ⟨hv, -⟩, rfl⟩ := hs
    exact (hl v hv).1
  refine { inv := hi.drop ?_ ?_, rest := hr.reseg seg, marked := ?_, fits := ?_ }
  · intro p l hp
    unfold Cx.lam at hp
    unfold Cx.lamBut
    split
    · rwa [if_pos ‹_›] at hp
    · rw [if_neg ‹_›] at hp
      have hlt : p - C.f.start < seg.length := slotLoc_lt hp
      have hn : p - C.f.start ∉ closing vs := fun hm => by have := hdead _ hm; omega
      rw [if_neg hn, slotLoc_append _ _ _ hlt]; exact hp
  · intro p l hp
    unfold Cx.lamBut at hp
    unfold Cx.lam
    split
    · rw [if_pos ‹_›] at hp; exact .inl hp
    · rw [if_neg ‹_›] at hp
      split at hp
      · cases hp
      · rename_i hne
        rcases slotLoc_append_inv hp with h1 | ⟨h1, x, hx⟩
        · exact .inl h1
        · right
          cases hmu : W.mu l with
          | none => rfl
          | some a =>
            obtain ⟨v, hv, h2, h3⟩ := hc _ h1 (hm _ l hp (by rw [hmu]; simp))
            refine absurd ?_ hne
            simp only [closing, List.mem_map, List.mem_filter]
            exact ⟨v, ⟨hv, h3⟩, h2⟩
  · intro s l hs' hl'
    have hlt := slotLoc_lt hs'
    exact hk s hlt (hm s l (by rw [slotLoc_append _ _ _ hlt]; exact hs') hl')
  · simp only [List.length_append] at hf
    show C.f.start + seg.length ≤ C.f.stop
    omega

/-! ## The creation of functions -/

theorem captureLocal_inv {Λ μ : Nat → Option Nat} {κ : List Value} (h : Inv Λ μ κ σ m) {p l : Nat} (hp : Λ p = some l) :
    ∃ a m' μ', captureLocal p m = (.ok a, m') ∧ Inv Λ μ' κ σ m' ∧ m'.mem = m.mem ∧ m'.ptr = m.ptr ∧
      (∀ x b, μ x = some b → μ' x = some b) ∧ (∀ x, μ' x ≠ none → μ x ≠ none ∨ x = l) ∧ μ' l = some a := by
  unfold captureLocal
  cases ho : findOpen m.cells m.openUps 0 p with
  | some r =>
    obtain ⟨i, a⟩ := r
    obtain ⟨-, h2, h3⟩ := findOpen_some ho
    rw [Nat.sub_zero] at h2
    obtain ⟨l', h4, h5⟩ := h.opens a _ (List.mem_of_getElem? h2) h3
    cases hp.symm.trans h4
    exact ⟨a, m, μ, rfl, h, rfl, rfl, fun _ _ h => h, fun _ h => .inl h, h5⟩
  | none =>
    have hn : μ l = none := by
      cases hm : μ l with
      | none => rfl
      | some a =>
        obtain ⟨h1, h2⟩ := h.opened l a _ hm hp
        exact absurd h2 (findOpen_none ho a h1)
    refine ⟨m.cells.length, _, _, rfl, h.capture hp hn, rfl, rfl, ?_, ?_, if_pos rfl⟩
    · intro x b hx
      rw [if_neg (by rintro rfl; rw [hn] at hx; cases hx)]; exact hx
    · intro x hx
      by_cases he : x = l
      · exact .inr he
      · rw [if_neg he] at hx; exact .inl hx

/-- The captures of a new function. -/
theorem captures_inv {Λ μ : Nat → Option Nat} {κ : List Value} (h : Inv Λ μ κ σ m) {f : Frame} {ups : Option (List Nat)}
    {bc : Bytecode} {loc : UpvalueDescriptor → Option Nat} (ds : List UpvalueDescriptor) (pos : Nat)
    (hb : ∀ j, j < 2 * ds.length → bc.data[pos + j]? = (ds.flatMap Asm.captureBytes)[j]?)
    (hl : ∀ s b, .parentLocal s b ∈ ds → s < 256 ∧ ∃ l, loc (.parentLocal s b) = some l ∧ Λ (f.start + s) = some l)
    (ho : ∀ j b, .outer j b ∈ ds → j < 256 ∧ ∃ l us a, loc (.outer j b) = some l ∧ ups = some us ∧ us[j]? = some a ∧ μ l = some a) :
    ∃ us m' μ', captures bc f ups ds.length pos m = (.ok us, m') ∧ Inv Λ μ' κ σ m' ∧ m'.mem = m.mem ∧ m'.ptr = m.ptr ∧
      (∀ x b, μ x = some b → μ' x = some b) ∧
      (∀ x, μ' x ≠ none → μ x ≠ none ∨ ∃ s b, .parentLocal s b ∈ ds ∧ Λ (f.start + s) = some x) ∧
      us.length = ds.length ∧ ∀ (i : Nat) d, ds[i]? = some d → ∃ l a, loc d = some l ∧ us[i]? = some a ∧ μ' l = some a := by
  induction ds generalizing pos m μ with
  | nil => exact ⟨[], m, μ, rfl, h, rfl, rfl, fun _ _ h => h, fun _ h => .inl h, rfl, by simp⟩
  | cons d ds ih =>
    have e0 : bc.data[pos]? = some (if d.description.1 then 1 else 0) := by
      have := hb 0 (by simp)
      simpa [Asm.captureBytes] using this
    have e1 : bc.data[pos + 1]? = some (UInt8.ofNat d.description.2) := by
      have := hb 1 (by simp; omega)
      simpa [Asm.captureBytes] using this
    have one : ∃ a m1 μ1 l, captureOne bc f ups pos m = (.ok a, m1) ∧ Inv Λ μ1 κ σ m1 ∧ m1.mem = m.mem ∧ m1.ptr = m.ptr ∧
        (∀ x b, μ x = some b → μ1 x = some b) ∧
        (∀ x, μ1 x ≠ none → μ x ≠ none ∨ ∃ s b, d = .parentLocal s b ∧ Λ (f.start + s) = some x) ∧
        loc d = some l ∧ μ1 l = some a := by
      unfold captureOne
      rw [operand_at e0, operand_at e1]
      simp only [pure_bind]
      cases d with
      | parentLocal s b =>
        obtain ⟨hs, l, h1, h2⟩ := hl s b (by simp)
        have h256 : (UInt8.ofNat s).toNat = s := by simp; omega
        rw [show (UpvalueDescriptor.parentLocal s b).description = (true, s) from rfl]
        rw [if_pos (by rfl)]
        simp only [h256]
        obtain ⟨a, m1, μ1, k1, k2, k3, k4, k5, k6, k7⟩ := captureLocal_inv h h2
        refine ⟨a, m1, μ1, l, k1, k2, k3, k4, k5, fun x hx => ?_, h1, k7⟩
        rcases k6 x hx with h | rfl
        · exact .inl h
        · exact .inr ⟨s, b, rfl, h2⟩
      | outer j b =>
        obtain ⟨hj, l, us, a, h1, h2, h3, h4⟩ := ho j b (by simp)
        have h256 : (UInt8.ofNat j).toNat = j := by simp; omega
        rw [show (UpvalueDescriptor.outer j b).description = (false, j) from rfl]
        rw [if_neg (by simp)]
        simp only [h256]
        refine ⟨a, m, μ, l, ?_, h, rfl, rfl, fun _ _ h => h, fun x hx => .inl hx, h1, h4⟩
        unfold upvalueAt
        rw [h2]
        simp only [h3]
        rfl
    obtain ⟨a, m1, μ1, l, k1, k2, k3, k4, k5, k6, k7, k8⟩ := one
    obtain ⟨us, m2, μ2, r1, r2, r3, r4, r5, r6, r7, r8⟩ := ih k2 (pos + 2) (fun j hj => by
        have := hb (j + 2) (by simp; omega)
        rw [show pos + 2 + j = pos + (j + 2) by omega, this]
        simp [Asm.captureBytes]) (fun s b hm => hl s b (.tail _ hm)) (fun j b hm => by
        obtain ⟨hj, l, us, a, h1, h2, h3, h4⟩ := ho j b (.tail _ hm)
        exact ⟨hj, l, us, a, h1, h2, h3, k5 _ _ h4⟩)
    refine ⟨a :: us, m2, μ2, ?_, r2, r3.trans k3, r4.trans k4, fun x b hx => r5 x b (k5 x b hx), ?_, by simp [r7], ?_⟩
    · show captures bc f ups (ds.length + 1) pos m = _
      unfold captures
      exact bind_eq k1 (bind_eq r1 rfl)
    · intro x hx
      rcases r6 x hx with h1 | ⟨s, b, h1, h2⟩
      · rcases k6 x h1 with h1 | ⟨s, b, rfl, h2⟩
        · exact .inl h1
        · exact .inr ⟨s, b, .head _, h2⟩
      · exact .inr ⟨s, b, .tail _ h1, h2⟩
    · intro i e he
      cases i with
      | zero => cases he; exact ⟨l, a, k7, rfl, r5 _ _ k8⟩
      | succ i => simpa using r8 i e (by simpa using he)

end

end Dice.Sim
