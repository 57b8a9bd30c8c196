import Verif.StaticView
import Verif.Blame

/-!
# Outcomes of the compiler's computations

`Wp n x v Q B`: started in a state of view `v` whose code has at least `n` bytes, the computation `x` either succeeds with
a result, a lower bound of the code length and a view satisfying `Q`, or fails with an error satisfying `B`.  The view of a
state is the place being compiled, the numbers of open chains of the scopes and the number of pending temporaries.
-/

namespace Dice

/-- The numbers of open chains of the scopes. -/
def Ctx.calls (c : Ctx) : List Nat := c.scopes.stack.map (·.callContext.depth)

/-- The positions recorded in the scopes lie in the code. -/
structure Ctx.Fine (c : Ctx) : Prop where
  ne : c.scopes.stack ≠ []
  exits : ∀ sc ∈ c.scopes.stack, ∀ h ∈ sc.exitPoints, h + 2 ≤ c.asm.data.length
  calls : ∀ sc ∈ c.scopes.stack, ∀ h ∈ sc.callContext.exitPoints, h + 2 ≤ c.asm.data.length
  entries : ∀ sc ∈ c.scopes.stack, ∀ e, sc.entryPoint = some e → e ≤ c.asm.data.length

structure View where
  site : Site
  calls : List Nat
  temps : Nat

/-- What a function that is not the innermost must keep. -/
def Ctx.rest (c : Ctx) : Nat × List Nat × Nat := (c.asm.data.length, c.calls, c.temporaryCount)

/-- A state of the given view whose code has at least `n` bytes. -/
structure Sees (s : CState) (n : Nat) (v : View) (R : List (Nat × List Nat × Nat)) : Prop where
  fine : ∀ c ∈ s.stack, c.Fine
  site : Env.place s.stack = v.site
  tail : s.stack.tail.map Ctx.rest = R
  head : ∃ c, s.stack.head? = some c ∧ n ≤ c.asm.data.length ∧ c.calls = v.calls ∧ c.temporaryCount = v.temps

def Wp {α : Type} (n : Nat) (x : M α) (v : View) (Q : α → Nat → View → Prop) (B : CErr → Prop) : Prop :=
  ∀ s R, Sees s n v R → match x s with
    | .ok (a, s') => ∃ n' w, n ≤ n' ∧ Sees s' n' w R ∧ Q a n' w
    | .error e => B e

/-- Ends at `w`, or fails with an error in `B`. -/
abbrev Vis (n : Nat) (x : M Unit) (v w : View) (B : CErr → Prop) : Prop := Wp n x v (fun _ _ w' => w' = w) B

section
variable {α β : Type} {n : Nat} {v w : View} {B : CErr → Prop}

theorem Sees.le {s : CState} {m : Nat} {R} (h : Sees s n v R) (hm : m ≤ n) : Sees s m v R := by
  obtain ⟨h1, h2, h3, c, h4, h5, h6⟩ := h
  exact ⟨h1, h2, h3, c, h4, Nat.le_trans hm h5, h6⟩

theorem wp_bind {x : M α} {f : α → M β} {Q : α → Nat → View → Prop} {Q' : β → Nat → View → Prop} (hx : Wp n x v Q B)
    (hf : ∀ a m w, n ≤ m → Q a m w → Wp m (f a) w Q' B) : Wp n (x >>= f) v Q' B := by
  intro s R hs
  have h := hx s R hs
  show match M.bind x f s with | .ok (a, s') => _ | .error e => _
  unfold M.bind
  cases hc : x s with
  | error e => rw [hc] at h; exact h
  | ok r =>
    obtain ⟨a, s'⟩ := r
    rw [hc] at h
    obtain ⟨m, w, hm, hs', hq⟩ := h
    have h2 := hf a m w hm hq s' R hs'
    show match f a s' with | .ok (a, s') => _ | .error e => _
    cases hd : f a s' with
    | error e => rw [hd] at h2; exact h2
    | ok r =>
      rw [hd] at h2
      obtain ⟨k, w', hk, h3⟩ := h2
      exact ⟨k, w', Nat.le_trans hm hk, h3⟩

theorem wp_then {x : M Unit} {y : M β} {Q' : β → Nat → View → Prop} (hx : Vis n x v w B)
    (hy : ∀ m, n ≤ m → Wp m y w Q' B) : Wp n (x >>= fun _ => y) v Q' B :=
  wp_bind hx fun _ m _ hm e => e ▸ hy m hm

theorem wp_pure {a : α} {Q : α → Nat → View → Prop} (h : Q a n v) : Wp n (pure a) v Q B :=
  fun _ _ hs => ⟨n, v, Nat.le_refl _, hs, h⟩

theorem wp_fail {e : CErr} {Q : α → Nat → View → Prop} (h : B e) : Wp n (M.fail e) v Q B := fun _ _ _ => h

theorem vis_skip : Vis n (pure ()) v v B := wp_pure rfl

theorem Wp.mono {x : M α} {Q Q' : α → Nat → View → Prop} {B' : CErr → Prop} (h : Wp n x v Q B)
    (hq : ∀ a m w, Q a m w → Q' a m w) (hb : ∀ e, B e → B' e) : Wp n x v Q' B' := by
  intro s R hs
  have := h s R hs
  cases hc : x s with
  | error e => rw [hc] at this; exact hb e this
  | ok r =>
    rw [hc] at this
    obtain ⟨m, w, h1, h2, h3⟩ := this
    exact ⟨m, w, h1, h2, hq _ _ _ h3⟩

theorem Vis.weaken {x : M Unit} {B' : CErr → Prop} (h : Vis n x v w B) (hb : ∀ e, B e → B' e) : Vis n x v w B' :=
  h.mono (fun _ _ _ h => h) hb

/-- Computations on the innermost context. -/
theorem wp_head {x : M α} {Q : α → Nat → View → Prop}
    (h : ∀ s c rest, s.stack = c :: rest → (∀ d ∈ c :: rest, d.Fine) → Env.place (c :: rest) = v.site → n ≤ c.asm.data.length →
      c.calls = v.calls → c.temporaryCount = v.temps → match x s with
        | .ok (a, s') => ∃ c' m w, s'.stack = c' :: rest ∧ c'.Fine ∧ Env.place (c' :: rest) = w.site ∧
            n ≤ m ∧ m ≤ c'.asm.data.length ∧ c'.calls = w.calls ∧ c'.temporaryCount = w.temps ∧ Q a m w
        | .error e => B e) : Wp n x v Q B := by
  intro s R hs
  obtain ⟨h1, h2, h3, c, h4, h5, h6, h7⟩ := hs
  cases hst : s.stack with
  | nil => rw [hst] at h4; cases h4
  | cons d rest =>
    rw [hst] at h4 h1 h2 h3
    cases h4
    have := h s c rest hst h1 h2 h5 h6 h7
    cases hc : x s with
    | error e => rw [hc] at this; exact this
    | ok r =>
      obtain ⟨a, s'⟩ := r
      rw [hc] at this
      obtain ⟨c', m, w, e1, e2, e3, e4, e5, e6, e7, e8⟩ := this
      refine ⟨m, w, e4, ⟨?_, by rw [e1]; exact e3, by rw [e1]; exact h3, c', by rw [e1]; rfl, e5, e6, e7⟩, e8⟩
      rw [e1]
      intro d hd
      rcases List.mem_cons.1 hd with rfl | hd
      · exact e2
      · exact h1 d (List.mem_cons_of_mem _ hd)

/-! ## Emitting -/

theorem bind_getCtx {f : Ctx → M α} {s : CState} {c : Ctx} {rest : List Ctx} (h : s.stack = c :: rest) :
    (getCtx >>= f) s = f c s := by
  show M.bind getCtx f s = _
  unfold M.bind getCtx
  rw [h]

theorem setCtx_eq {s : CState} {c c' : Ctx} {rest : List Ctx} (h : s.stack = c :: rest) :
    setCtx c' s = .ok ((), { s with stack := c' :: rest }) := by
  unfold setCtx
  rw [h]

theorem bind_setCtx {f : Unit → M α} {s : CState} {c c' : Ctx} {rest : List Ctx} (h : s.stack = c :: rest) :
    (setCtx c' >>= f) s = f () { s with stack := c' :: rest } := by
  show M.bind (setCtx c') f s = _
  unfold M.bind
  rw [setCtx_eq h]


theorem Ctx.Fine.asm {c : Ctx} (h : c.Fine) {a : Asm} (ha : c.asm.data.length ≤ a.data.length) :
    ({ c with asm := a } : Ctx).Fine :=
  ⟨h.ne, fun sc hsc x hx => Nat.le_trans (h.exits sc hsc x hx) ha, fun sc hsc x hx => Nat.le_trans (h.calls sc hsc x hx) ha,
    fun sc hsc e he => Nat.le_trans (h.entries sc hsc e he) ha⟩

theorem wp_emitE {f : Asm → Except CErr Asm} (hf : ∀ a, n ≤ a.data.length → match f a with
    | .ok a' => a.data.length ≤ a'.data.length
    | .error e => B e) : Vis n (emitE f) v v B := by
  refine wp_head fun s c rest hst hfine hsite hn hcalls htemps => ?_
  have h := hf c.asm hn
  unfold emitE
  rw [bind_getCtx hst]
  cases hc : f c.asm with
  | error e => rw [hc] at h; exact h
  | ok a =>
    rw [hc] at h
    dsimp only
    rw [setCtx_eq hst]
    exact ⟨_, n, v, rfl, (hfine c (List.mem_cons_self ..)).asm h, hsite, Nat.le_refl _, Nat.le_trans hn h, hcalls, htemps, rfl⟩

theorem vis_emit {o : Opcode} : Vis n (emit o) v v B :=
  wp_emitE fun a _ => by simp [Asm.op, Asm.putU8]

theorem vis_emit1 {o : Opcode} {k : Nat} : Vis n (emit1 o k) v v B :=
  wp_emitE fun a _ => by simp [Asm.op1, Asm.putU8]

theorem makeConstant_out (a : Asm) (c : Const) : match a.makeConstant c with
    | .ok (_, a') => a'.data = a.data
    | .error e => e = .tooManyConstants := by
  unfold Asm.makeConstant
  cases a.constants.findIdx? (fun current => current.beq c) with
  | some p => dsimp only; by_cases h : p > 255 <;> simp [h]
  | none =>
    dsimp only
    by_cases h : (a.constants ++ [c]).length - 1 > 255
    · rw [if_pos h]
    · rw [if_neg h]

theorem opConst_out (a : Asm) (o : Opcode) (x : String) : match a.opConst o x with
    | .ok a' => a.data.length ≤ a'.data.length
    | .error e => e = .tooManyConstants := by
  have h := makeConstant_out a (.sym x)
  unfold Asm.opConst
  cases hc : a.makeConstant (.sym x) with
  | error e => rw [hc] at h; exact h
  | ok r => rw [hc] at h; simp only at h; simp [Asm.op1, Asm.putU8, h]

theorem opThenConst_out (a : Asm) (o : Opcode) (x : Const) : match a.opThenConst o x with
    | .ok a' => a.data.length ≤ a'.data.length
    | .error e => e = .tooManyConstants := by
  have h := makeConstant_out (a.op o) x
  unfold Asm.opThenConst
  cases hc : (a.op o).makeConstant x with
  | error e => rw [hc] at h; exact h
  | ok r => rw [hc] at h; simp only at h; simp [Asm.putU8, h, Asm.op]

theorem vis_emitConst {o : Opcode} {x : String} (hB : B .tooManyConstants) : Vis n (emitConst o x) v v B :=
  wp_emitE fun a _ => by
    have := opConst_out a o x
    cases hc : a.opConst o x with
    | error e => rw [hc] at this; cases this; exact hB
    | ok r => rw [hc] at this; exact this

theorem vis_thenConst {o : Opcode} {x : Const} (hB : B .tooManyConstants) : Vis n (emitE fun a => a.opThenConst o x) v v B :=
  wp_emitE fun a _ => by
    have := opThenConst_out a o x
    cases hc : a.opThenConst o x with
    | error e => rw [hc] at this; cases this; exact hB
    | ok r => rw [hc] at this; exact this

theorem vis_pushConst {x : Const} (hB : B .tooManyConstants) : Vis n (emitE fun a => a.pushConst x) v v B :=
  vis_thenConst hB

theorem vis_loadFieldToLocal {x : String} {k : UInt8} (hB : B .tooManyConstants) :
    Vis n (emitE fun a => a.loadFieldToLocal x k) v v B :=
  wp_emitE fun a _ => by
    have := opConst_out a .loadFieldToLocal x
    show match a.loadFieldToLocal x k with | .ok a' => _ | .error e => _
    unfold Asm.loadFieldToLocal
    cases hc : a.opConst .loadFieldToLocal x with
    | error e => rw [hc] at this; cases this; exact hB
    | ok r => rw [hc] at this; simp only at this ⊢; simp [Asm.putU8]; omega

theorem vis_closure {x : Const} {ups : List UpvalueDescriptor} (hB : B .tooManyConstants) (hU : B .tooManyUpvalues) :
    Vis n (emitE fun a => a.closure x ups) v v B :=
  wp_emitE fun a _ => by
    have := opThenConst_out a .createClosure x
    show match a.closure x ups with | .ok a' => _ | .error e => _
    unfold Asm.closure
    cases hc : a.opThenConst .createClosure x with
    | error e => rw [hc] at this; cases this; exact hB
    | ok r =>
      rw [hc] at this
      dsimp only
      by_cases h : ups.length > 255
      · rw [if_pos h]; exact hU
      · rw [if_neg h]; simp only at this ⊢; simp; omega

theorem vis_patch {p : Nat} (hp : p + 2 ≤ n) : Vis n (patch p) v v B :=
  wp_emitE fun a hn => by
    show match a.patchJump p with | .ok a' => _ | .error e => _
    unfold Asm.patchJump
    rw [if_pos (by omega)]
    simp [encodeI16]
    omega

theorem vis_jumpBack {p : Nat} (hp : p ≤ n) (hB : B (.panic "jump_back")) : Vis n (emitJumpBack p) v v B :=
  wp_emitE fun a hn => by
    show match a.jumpBack p with | .ok a' => _ | .error e => _
    unfold Asm.jumpBack
    dsimp only
    by_cases h1 : (a.op .jump).data.length < p
    · rw [if_pos h1]; exact hB
    · rw [if_neg h1]
      by_cases h2 : asI16 ((a.op .jump).data.length - p + 2) = -32768
      · rw [if_pos h2]; exact hB
      · rw [if_neg h2]; simp [Asm.op, Asm.putU8]

theorem vis_patchAll {ps : List Nat} (hp : ∀ p ∈ ps, p + 2 ≤ n) : Vis n (patchAll ps) v v B := by
  induction ps generalizing n with
  | nil => exact vis_skip
  | cons p ps ih =>
    refine wp_then (vis_patch (hp p (List.mem_cons_self ..))) fun m hm => ih fun q hq => ?_
    have := hp q (List.mem_cons_of_mem _ hq)
    omega

theorem vis_repeat {x : M Unit} {k : Nat} (hx : ∀ n, Vis n x v v B) : Vis n (repeatM x k) v v B := by
  induction k generalizing n with
  | zero => exact vis_skip
  | succ k ih => exact wp_then (hx n) fun _ _ => ih

theorem vis_drop {k : Nat} : Vis n (dropTemporaries k) v v B :=
  vis_repeat fun _ => wp_then vis_emit fun _ _ => vis_emit

theorem wp_jump {o : Opcode} : Wp n (emitJump o) v (fun j m w => j + 2 ≤ m ∧ w = v) B := by
  refine wp_head fun s c rest hst hfine hsite hn hcalls htemps => ?_
  unfold emitJump
  rw [bind_getCtx hst]
  dsimp only
  rw [bind_setCtx hst]
  have hl : (c.asm.jump o).1.data.length = c.asm.data.length + 3 := by simp [Asm.jump, Asm.op, Asm.putU8, encodeI16]
  have hj : (c.asm.jump o).2 + 2 = c.asm.data.length + 3 := by simp [Asm.jump, Asm.op, Asm.putU8]
  refine ⟨_, c.asm.data.length + 3, v, rfl, (hfine c (List.mem_cons_self ..)).asm ?_, hsite, ?_, ?_, hcalls, htemps, ?_, rfl⟩
  · show _ ≤ (c.asm.jump o).1.data.length
    omega
  · omega
  · show _ ≤ (c.asm.jump o).1.data.length
    omega
  · exact Nat.le_of_eq hj

/-! ## Reading the state -/

theorem wp_getFine : Wp n getCtx v (fun c m w => w = v ∧ v.site.head? = some c.place ∧ c.Fine ∧ c.asm.data.length ≤ m) B := by
  refine wp_head fun s c rest hst hfine hsite hn hcalls htemps => ?_
  unfold getCtx
  rw [hst]
  exact ⟨c, c.asm.data.length, v, hst, hfine c (List.mem_cons_self ..), hsite, hn, Nat.le_refl _, hcalls, htemps, rfl, hsite ▸ rfl,
    hfine c (List.mem_cons_self ..), Nat.le_refl _⟩

theorem wp_getCtx : Wp n getCtx v (fun c _ w => w = v ∧ v.site.head? = some c.place) B :=
  wp_getFine.mono (fun _ _ _ h => ⟨h.1, h.2.1⟩) fun _ h => h

theorem wp_position : Wp n position v (fun p m w => p ≤ m ∧ w = v) B := by
  refine wp_head fun s c rest hst hfine hsite hn hcalls htemps => ?_
  unfold Dice.position
  rw [bind_getCtx hst]
  exact ⟨c, c.asm.data.length, v, hst, hfine c (List.mem_cons_self ..), hsite, hn, Nat.le_refl _, hcalls, htemps, Nat.le_refl _, rfl⟩

theorem lookupHere_head {c : Ctx} {q : Site} (h : q.head? = some c.place) (x : String) :
    q.lookupHere x = (c.scopes.local? x).map ScopeVar.toName := by
  cases q with
  | nil => cases h
  | cons f q =>
    cases h
    exact lookupHere_place [c] x

theorem wp_lookup {x : String} : Wp n (lookupLocal x) v (fun r _ w => w = v ∧ v.site.lookupHere x = r.map ScopeVar.toName) B :=
  wp_bind wp_getCtx fun c m w _ h => by
    obtain ⟨rfl, h⟩ := h
    exact wp_pure ⟨rfl, lookupHere_head h x⟩

theorem wp_topScope : Wp n topScope v (fun sc m w => w = v ∧ v.site.depth = sc.depth ∧
    (∀ h ∈ sc.callContext.exitPoints, h + 2 ≤ m) ∧ ∃ l, v.calls = sc.callContext.depth :: l) B := by
  refine wp_head fun s c rest hst hfine hsite hn hcalls htemps => ?_
  unfold Dice.topScope
  rw [bind_getCtx hst]
  have hf := hfine c (List.mem_cons_self ..)
  cases hs : c.scopes.stack with
  | nil => exact absurd hs hf.ne
  | cons sc ss =>
    rw [show c.scopes.top? = some sc by simp [ScopeStack.top?, hs]]
    refine ⟨c, c.asm.data.length, v, hst, hf, hsite, hn, Nat.le_refl _, hcalls, htemps, rfl, ?_, ?_, ?_⟩
    · rw [← hsite]
      show (match c.scopes.stack.map ScopeContext.place with | [] => 0 | b :: _ => b.depth) = _
      rw [hs]
      rfl
    · exact hf.calls sc (hs ▸ List.mem_cons_self ..)
    · rw [← hcalls]
      exact ⟨ss.map (·.callContext.depth), by simp [Ctx.calls, hs]⟩

theorem wp_temps : Wp n getTemporaries v (fun k _ w => w = v ∧ k = v.temps) B := by
  refine wp_head fun s c rest hst hfine hsite hn hcalls htemps => ?_
  unfold Dice.getTemporaries
  rw [bind_getCtx hst]
  exact ⟨c, n, v, hst, hfine c (List.mem_cons_self ..), hsite, Nat.le_refl _, hn, hcalls, htemps, rfl, htemps⟩

theorem vis_setTemps {k : Nat} : Vis n (setTemporaries k) v { v with temps := k } B := by
  refine wp_head fun s c rest hst hfine hsite hn hcalls htemps => ?_
  unfold Dice.setTemporaries
  rw [bind_getCtx hst]
  rw [setCtx_eq hst]
  have hf := hfine c (List.mem_cons_self ..)
  exact ⟨_, n, { v with temps := k }, rfl, ⟨hf.ne, hf.exits, hf.calls, hf.entries⟩, hsite, Nat.le_refl _, hn, hcalls, rfl, rfl⟩

/-! ## Scopes -/

theorem vis_pushScope {k : ScopeKind} {e : Option Nat} (he : ∀ p, e = some p → p ≤ n) :
    Vis n (pushScope k e) v ⟨v.site.enter (if k = .loop then some e.isSome else none), 0 :: v.calls, v.temps⟩ B := by
  refine wp_head fun s c rest hst hfine hsite hn hcalls htemps => ?_
  unfold Dice.pushScope
  rw [bind_getCtx hst]
  rw [setCtx_eq hst]
  have hf := hfine c (List.mem_cons_self ..)
  refine ⟨_, n, ⟨v.site.enter (if k = .loop then some e.isSome else none), 0 :: v.calls, v.temps⟩, rfl, ⟨by simp [ScopeStack.pushScope], ?_, ?_, ?_⟩, ?_, Nat.le_refl _, hn, ?_, htemps, rfl⟩
  · intro sc hsc h hh
    rcases List.mem_cons.1 hsc with rfl | hsc
    · cases hh
    · exact hf.exits sc hsc h hh
  · intro sc hsc h hh
    rcases List.mem_cons.1 hsc with rfl | hsc
    · cases hh
    · exact hf.calls sc hsc h hh
  · intro sc hsc h hh
    rcases List.mem_cons.1 hsc with rfl | hsc
    · exact Nat.le_trans (he h hh) hn
    · exact hf.entries sc hsc h hh
  · rw [← hsite]
    have : (c.scopes.stack.map ScopeContext.place).length = c.scopes.stack.length := List.length_map ..
    show _ :: _ = _ :: _
    unfold Ctx.place ScopeStack.pushScope
    dsimp only
    rw [this]
    cases k <;> rfl
  · rw [← hcalls]
    rfl

theorem wp_popScope {a b : Nat} {l : List Nat} (hv : v.calls = a :: b :: l) :
    Wp n popScope v (fun sc m w => w = ⟨v.site.leave, b :: l, v.temps⟩ ∧ ∀ h ∈ sc.exitPoints, h + 2 ≤ m) B := by
  refine wp_head fun s c rest hst hfine hsite hn hcalls htemps => ?_
  unfold Dice.popScope
  rw [bind_getCtx hst]
  have hf := hfine c (List.mem_cons_self ..)
  obtain ⟨k, asm, u, ⟨st, cnt⟩, t⟩ := c
  have hv : st.map (·.callContext.depth) = a :: b :: l := hcalls.trans hv
  match st, hv, hf with
  | sc :: sd :: ss, hv, hf =>
    simp only [List.map_cons, List.cons.injEq] at hv
    simp only [ScopeStack.popScope]
    rw [bind_setCtx hst]
    refine ⟨_, asm.data.length, ⟨v.site.leave, b :: l, v.temps⟩, rfl, ⟨by simp, ?_, ?_, ?_⟩, ?_, hn, Nat.le_refl _, ?_, htemps, rfl, ?_⟩
    · exact fun x hx => hf.exits x (List.mem_cons_of_mem _ hx)
    · exact fun x hx => hf.calls x (List.mem_cons_of_mem _ hx)
    · exact fun x hx => hf.entries x (List.mem_cons_of_mem _ hx)
    · rw [← hsite]; rfl
    · show sd.callContext.depth :: ss.map _ = _
      rw [hv.2.1, hv.2.2]
    · exact hf.exits sc (List.mem_cons_self ..)

theorem wp_calls {x : M α} {Q : α → Nat → View → Prop} (h : ∀ a l, v.calls = a :: l → Wp n x v Q B) : Wp n x v Q B := by
  intro s R hs
  obtain ⟨c, hc, -, hcalls, -⟩ := hs.head
  have hf := hs.fine c (List.mem_of_mem_head? hc)
  cases hst : c.scopes.stack with
  | nil => exact absurd hst hf.ne
  | cons sc ss =>
    have : v.calls = sc.callContext.depth :: ss.map (·.callContext.depth) := by
      rw [← hcalls, Ctx.calls, hst]; rfl
    exact h _ _ this s R hs

theorem vis_addLocal {x : String} {st : VarState} :
    Wp n (addLocal x st) v (fun _ _ w => w = { v with site := v.site.declare x st }) B := by
  refine wp_head fun s c rest hst hfine hsite hn hcalls htemps => ?_
  unfold Dice.addLocal
  rw [bind_getCtx hst]
  have hf := hfine c (List.mem_cons_self ..)
  obtain ⟨k, asm, u, ⟨stk, cnt⟩, t⟩ := c
  cases stk with
  | nil => exact absurd rfl hf.ne
  | cons sc ss =>
    simp only [ScopeStack.addLocal]
    rw [bind_setCtx hst]
    refine ⟨_, n, { v with site := v.site.declare x st }, rfl, ⟨by simp, ?_, ?_, ?_⟩, ?_, Nat.le_refl _, hn, ?_, htemps, rfl⟩
    · intro y hy h hh
      rcases List.mem_cons.1 hy with rfl | hy
      · exact hf.exits sc (List.mem_cons_self ..) h hh
      · exact hf.exits y (List.mem_cons_of_mem _ hy) h hh
    · intro y hy h hh
      rcases List.mem_cons.1 hy with rfl | hy
      · exact hf.calls sc (List.mem_cons_self ..) h hh
      · exact hf.calls y (List.mem_cons_of_mem _ hy) h hh
    · intro y hy h hh
      rcases List.mem_cons.1 hy with rfl | hy
      · exact hf.entries sc (List.mem_cons_self ..) h hh
      · exact hf.entries y (List.mem_cons_of_mem _ hy) h hh
    · rw [← hsite]; rfl
    · exact hcalls

theorem modifyScopes_mem {x : String} {f : ScopeVar → ScopeVar} {cs : List ScopeContext} {sc : ScopeContext}
    (h : sc ∈ ScopeStack.modifyScopes x f cs) : ∃ sc' ∈ cs, sc.exitPoints = sc'.exitPoints ∧ sc.callContext = sc'.callContext ∧
      sc.entryPoint = sc'.entryPoint := by
  induction cs with
  | nil => cases h
  | cons c cs ih =>
    simp only [ScopeStack.modifyScopes] at h
    split at h
    · rcases List.mem_cons.1 h with rfl | h
      · exact ⟨c, List.mem_cons_self .., rfl, rfl, rfl⟩
      · exact ⟨sc, List.mem_cons_of_mem _ h, rfl, rfl, rfl⟩
    · rcases List.mem_cons.1 h with rfl | h
      · exact ⟨_, List.mem_cons_self .., rfl, rfl, rfl⟩
      · obtain ⟨y, hy, e⟩ := ih h
        exact ⟨y, List.mem_cons_of_mem _ hy, e⟩

theorem modifyScopes_calls (x : String) (f : ScopeVar → ScopeVar) (cs : List ScopeContext) :
    (ScopeStack.modifyScopes x f cs).map (·.callContext.depth) = cs.map (·.callContext.depth) := by
  induction cs with
  | nil => rfl
  | cons c cs ih =>
    simp only [ScopeStack.modifyScopes]
    split
    · rfl
    · simp only [List.map_cons, ih]

theorem modifyScopes_ne {x : String} {f : ScopeVar → ScopeVar} {cs : List ScopeContext} (h : cs ≠ []) :
    ScopeStack.modifyScopes x f cs ≠ [] := by
  cases cs with
  | nil => exact absurd rfl h
  | cons c cs => simp only [ScopeStack.modifyScopes]; split <;> simp

theorem Ctx.Fine.modify {c : Ctx} (h : c.Fine) (x : String) (f : ScopeVar → ScopeVar) :
    ({ c with scopes := c.scopes.modifyLocal x f } : Ctx).Fine := by
  refine ⟨modifyScopes_ne h.ne, ?_, ?_, ?_⟩
  · intro sc hsc p hp
    obtain ⟨y, hy, e1, e2, e3⟩ := modifyScopes_mem hsc
    exact h.exits y hy p (e1 ▸ hp)
  · intro sc hsc p hp
    obtain ⟨y, hy, e1, e2, e3⟩ := modifyScopes_mem hsc
    exact h.calls y hy p (e2 ▸ hp)
  · intro sc hsc p hp
    obtain ⟨y, hy, e1, e2, e3⟩ := modifyScopes_mem hsc
    exact h.entries y hy p (e3 ▸ hp)

theorem vis_setState {x : String} {st : VarState} : Vis n (setLocalState x st) v { v with site := v.site.mark x st } B := by
  refine wp_head fun s c rest hst hfine hsite hn hcalls htemps => ?_
  unfold Dice.setLocalState
  rw [bind_getCtx hst, setCtx_eq hst]
  have hf := hfine c (List.mem_cons_self ..)
  refine ⟨_, n, { v with site := v.site.mark x st }, rfl, hf.modify _ _, ?_, Nat.le_refl _, hn, ?_, htemps, rfl⟩
  · rw [← hsite]
    exact place_setState (c :: rest) x st
  · rw [← hcalls]
    exact modifyScopes_calls ..

theorem vis_setCall {a : Nat} {l : List Nat} {cc : CallContext} (hv : v.calls = a :: l)
    (hc : ∀ h ∈ cc.exitPoints, h + 2 ≤ n) : Vis n (setCallContext cc) v { v with calls := cc.depth :: l } B := by
  refine wp_head fun s c rest hst hfine hsite hn hcalls htemps => ?_
  unfold Dice.setCallContext
  rw [bind_getCtx hst]
  have hf := hfine c (List.mem_cons_self ..)
  obtain ⟨k, asm, u, ⟨stk, cnt⟩, t⟩ := c
  have hv : stk.map (·.callContext.depth) = a :: l := hcalls.trans hv
  cases stk with
  | nil => exact absurd rfl hf.ne
  | cons sc ss =>
    simp only [List.map_cons, List.cons.injEq] at hv
    simp only [ScopeStack.modifyTop]
    rw [setCtx_eq hst]
    refine ⟨_, n, { v with calls := cc.depth :: l }, rfl, ⟨by simp, ?_, ?_, ?_⟩, ?_, Nat.le_refl _, hn, ?_, htemps, rfl⟩
    · intro y hy h hh
      rcases List.mem_cons.1 hy with rfl | hy
      · exact hf.exits sc (List.mem_cons_self ..) h hh
      · exact hf.exits y (List.mem_cons_of_mem _ hy) h hh
    · intro y hy h hh
      rcases List.mem_cons.1 hy with rfl | hy
      · exact Nat.le_trans (hc h hh) hn
      · exact hf.calls y (List.mem_cons_of_mem _ hy) h hh
    · intro y hy h hh
      rcases List.mem_cons.1 hy with rfl | hy
      · exact hf.entries sc (List.mem_cons_self ..) h hh
      · exact hf.entries y (List.mem_cons_of_mem _ hy) h hh
    · rw [← hsite]; rfl
    · show cc.depth :: ss.map _ = _
      rw [hv.2]

end

end Dice
