import Verif.Emit

/-!
# Runs of the compiler's primitives

For every primitive of the compiler: what it emits (`Run`), and what it does to the static environment.
-/

namespace Dice

/-! ## Monad -/

theorem M.bind_inv {α β : Type} {x : M α} {f : α → M β} {s : CState} {r : β × CState}
    (h : (x >>= f) s = .ok r) : ∃ a s1, x s = .ok (a, s1) ∧ f a s1 = .ok r := by
  have h : M.bind x f s = .ok r := h
  unfold M.bind at h
  split at h
  · cases h
  · rename_i a s1 hx
    exact ⟨a, s1, hx, h⟩

theorem M.pure_inv {α : Type} {a b : α} {s s' : CState} (h : (pure a : M α) s = .ok (b, s')) : b = a ∧ s' = s := by
  have h : M.pure a s = .ok (b, s') := h
  unfold M.pure at h
  cases h
  exact ⟨rfl, rfl⟩

theorem M.fail_inv {α : Type} {e : CErr} {s : CState} {r : α × CState} (h : (M.fail e : M α) s = .ok r) : False := by
  unfold M.fail at h
  cases h

theorem getCtx_inv {s s' : CState} {c : Ctx} (h : getCtx s = .ok (c, s')) : s' = s ∧ ∃ rest, s.stack = c :: rest := by
  unfold getCtx at h
  split at h
  · cases h
  · rename_i c rest hs
    cases h
    exact ⟨rfl, rest, hs⟩

theorem setCtx_inv {s s' : CState} {c : Ctx} (h : setCtx c s = .ok ((), s')) :
    ∃ c0 rest, s.stack = c0 :: rest ∧ s' = { s with stack := c :: rest } := by
  unfold setCtx at h
  split at h
  · cases h
  · rename_i c0 rest hs
    cases h
    exact ⟨c0, rest, hs, rfl⟩

/-! ## Static environments of states -/

/-- The static environment of a state. -/
def CState.env (s : CState) : Env := s.stack.map Ctx.erase

/-- The position records of the innermost context. -/
def CState.sk (s : CState) : List Skel :=
  match s.stack with
  | [] => []
  | c :: _ => c.skels

/-- Invariant of a state. -/
def Inv (s : CState) : Prop := ∀ c ∈ s.stack, CtxOk s.nextId c

/-- Nothing is emitted in an outer context. -/
structure Quiet (c c' : Ctx) : Prop where
  asm : c'.asm = c.asm
  skels : c'.skels = c.skels

theorem Quiet.refl (c : Ctx) : Quiet c c := ⟨rfl, rfl⟩

theorem Quiet.trans {a b c : Ctx} (h1 : Quiet a b) (h2 : Quiet b c) : Quiet a c :=
  ⟨h2.asm.trans h1.asm, h2.skels.trans h1.skels⟩

/-- The same for a stack of contexts. -/
inductive Quiets : List Ctx → List Ctx → Prop where
  | nil : Quiets [] []
  | cons {a b l l'} : Quiet a b → Quiets l l' → Quiets (a :: l) (b :: l')

theorem Quiets.refl : (l : List Ctx) → Quiets l l
  | [] => .nil
  | c :: l => .cons (.refl c) (Quiets.refl l)

theorem Quiets.trans {a b c : List Ctx} (h1 : Quiets a b) (h2 : Quiets b c) : Quiets a c := by
  induction h1 generalizing c with
  | nil => exact h2
  | cons h _ ih =>
    cases h2 with
    | cons h' h2 => exact .cons (h.trans h') (ih h2)

theorem Quiet.ok {n n' : Nat} {c c' : Ctx} (h : Quiet c c') (hok : CtxOk n c) (hn : n ≤ n') : CtxOk n' c' := by
  refine ⟨?_, ?_, ?_⟩
  · simp only [h.skels, Ctx.len, h.asm]; exact hok.holes
  · rw [h.skels]; exact hok.calls
  · rw [h.asm]; exact fun code name id hm => (hok.ids code name id hm).imp (Nat.lt_of_lt_of_le · hn) fun h => h

theorem Quiets.ok {n n' : Nat} {l l' : List Ctx} (h : Quiets l l') (hok : ∀ c ∈ l, CtxOk n c) (hn : n ≤ n') :
    ∀ c ∈ l', CtxOk n' c := by
  induction h with
  | nil => simp
  | cons h _ ih =>
    intro c hc
    rcases List.mem_cons.mp hc with rfl | hc
    · exact h.ok (hok _ (by simp)) hn
    · exact ih (fun c hc => hok c (by simp [hc])) c hc

/-! ## Runs -/

/-- A stretch of emission between states. -/
structure Moves (s s' : CState) (k : Option Nat) (L E X : List Nat) (P : Place) : Prop where
  ex : ∃ c rest c' rest', s.stack = c :: rest ∧ s'.stack = c' :: rest' ∧ Em c c' k L E X P ∧ Quiets rest rest'
  ids : s.nextId ≤ s'.nextId
  inv : Inv s'

/-- A run of the compiler that emits the code `c`, with holes `L` left over. -/
def Run (s s' : CState) (L : List Nat) (c : Code) : Prop :=
  ∃ E X, Moves s s' (loopEntry s.sk) L E X c.place ∧ (hasLoop s.sk = false → E = []) ∧
    (depthOf s.sk = some 0 → X = [])

theorem Run.inv {s s' L c} (h : Run s s' L c) : Inv s' := by
  obtain ⟨E, X, hm, -⟩ := h
  exact hm.inv

theorem Moves.sk {s s' k L E X P} (h : Moves s s' k L E X P) : s'.sk = appE E (appX X s.sk) := by
  obtain ⟨⟨c, rest, c', rest', hs, hs', he, -⟩, -, -⟩ := h
  simp only [CState.sk, hs, hs', he.sk]

theorem Run.loopEntry {s s' L c} (h : Run s s' L c) : loopEntry s'.sk = loopEntry s.sk := by
  obtain ⟨E, X, hm, -⟩ := h
  rw [hm.sk, loopEntry_appE, loopEntry_appX]

theorem Run.hasLoop {s s' L c} (h : Run s s' L c) : hasLoop s'.sk = hasLoop s.sk := by
  obtain ⟨E, X, hm, -⟩ := h
  rw [hm.sk, hasLoop_appE, hasLoop_appX]

theorem Run.depthOf {s s' L c} (h : Run s s' L c) : depthOf s'.sk = depthOf s.sk := by
  obtain ⟨E, X, hm, -⟩ := h
  rw [hm.sk, depthOf_appE, depthOf_appX]

theorem Moves.seq {s s1 s2 k L1 E1 X1 P1 L2 E2 X2 P2} (h1 : Moves s s1 k L1 E1 X1 P1) (h2 : Moves s1 s2 k L2 E2 X2 P2) :
    Moves s s2 k (L1 ++ L2) (E1 ++ E2) (X1 ++ X2) (P1.seq P2) := by
  obtain ⟨⟨c, rest, c', rest', hs, hs', he, hq⟩, hn, -⟩ := h1
  obtain ⟨⟨d, restd, d', restd', ht, ht', he2, hq2⟩, hn2, hi⟩ := h2
  rw [hs'] at ht
  cases ht
  exact ⟨⟨c, rest, d', restd', hs, ht', he.seq he2, hq.trans hq2⟩, Nat.le_trans hn hn2, hi⟩

theorem Moves.mono {s s' k L E X P Q} (h : Moves s s' k L E X P)
    (hpq : ∀ D p q tb tc te, P D p q tb tc te → Q D p q tb tc te) : Moves s s' k L E X Q := by
  obtain ⟨⟨c, rest, c', rest', hs, hs', he, hq⟩, hn, hi⟩ := h
  exact ⟨⟨c, rest, c', rest', hs, hs', he.mono hpq, hq⟩, hn, hi⟩

theorem Moves.anyK {s s' L E X P} (h : Moves s s' none L E X P) (k : Option Nat) : Moves s s' k L E X P := by
  obtain ⟨⟨c, rest, c', rest', hs, hs', he, hq⟩, hn, hi⟩ := h
  exact ⟨⟨c, rest, c', rest', hs, hs', he.anyK k, hq⟩, hn, hi⟩

theorem Run.seq {s s1 s2 L1 L2 c1 c2} (h1 : Run s s1 L1 c1) (h2 : Run s1 s2 L2 c2) :
    Run s s2 (L1 ++ L2) (.seq c1 c2) := by
  have hle := h1.loopEntry
  have hhl := h1.hasLoop
  have hdo := h1.depthOf
  obtain ⟨E1, X1, hm1, hE1, hX1⟩ := h1
  obtain ⟨E2, X2, hm2, hE2, hX2⟩ := h2
  rw [hle] at hm2
  rw [hhl] at hE2
  rw [hdo] at hX2
  exact ⟨_, _, (hm1.seq hm2).mono fun D p q tb tc te h => h, fun h => by rw [hE1 h, hE2 h]; rfl,
    fun h => by rw [hX1 h, hX2 h]; rfl⟩

theorem Moves.plain {s s' c} (h : Moves s s' none [] [] [] (Code.place c)) : Run s s' [] c :=
  ⟨[], [], h.anyK _, fun _ => rfl, fun _ => rfl⟩

/-- A change of state without emission. -/
theorem Run.quiet {s s' : CState} (hi : Inv s) {c c' : Ctx} {rest rest' : List Ctx} (hs : s.stack = c :: rest)
    (hs' : s'.stack = c' :: rest') (hc : Quiet c c') (hq : Quiets rest rest') (hn : s.nextId ≤ s'.nextId) :
    Run s s' [] .nop := by
  refine Moves.plain ⟨⟨c, rest, c', rest', hs, hs', Em.nop hc.asm hc.skels, hq⟩, hn, ?_⟩
  intro x hx
  rw [hs'] at hx
  exact (Quiets.cons hc hq).ok (fun y hy => hi y (hs ▸ hy)) hn x hx

theorem Run.refl {s : CState} (hi : Inv s) {c : Ctx} {rest : List Ctx} (hs : s.stack = c :: rest) : Run s s [] .nop :=
  .quiet hi hs hs (.refl c) (.refl rest) (Nat.le_refl _)

theorem Run.stack' {s s' L c} (h : Run s s' L c) : ∃ d rest, s'.stack = d :: rest := by
  obtain ⟨E, X, hm, -⟩ := h
  obtain ⟨⟨c, rest, c', rest', hs, hs', he, -⟩, -, -⟩ := hm
  exact ⟨c', rest', hs'⟩

/-- A run may be extended by nothing. -/
theorem Run.done {s s' L c} (h : Run s s' L c) : Run s s' L (.seq c .nop) := by
  obtain ⟨d, rest, hs⟩ := h.stack'
  have := h.seq (.refl h.inv hs)
  rw [List.append_nil] at this
  exact this

/-- Nothing before a run. -/
theorem Run.nopSeq {s s' L c} (h : Run s s' L (.seq .nop c)) : Run s s' L c := by
  obtain ⟨E, X, hm, h1, h2⟩ := h
  refine ⟨E, X, hm.mono ?_, h1, h2⟩
  rintro D p q tb tc te ⟨r, hr, h⟩
  have hr : p = r := hr
  subst hr
  exact h

/-- Quiet changes between runs do not show. -/
theorem Run.after {s s1 s2 L c} (h1 : Run s s1 [] .nop) (h2 : Run s1 s2 L c) : Run s s2 L c :=
  (h1.seq h2 : Run s s2 L (.seq .nop c)).nopSeq

theorem Run.before {s s1 s2 L c} (h1 : Run s s1 L c) (h2 : Run s1 s2 [] .nop) : Run s s2 L c := by
  have h := h1.seq h2
  rw [List.append_nil] at h
  obtain ⟨E, X, hm, h1, h2⟩ := h
  refine ⟨E, X, hm.mono ?_, h1, h2⟩
  rintro D p q tb tc te ⟨r, h, hr⟩
  have hr : r = q := hr
  subst hr
  exact h

/-! ## Emission of instructions -/

theorem emitE_inv {f : Asm → Except CErr Asm} {s s' : CState} (h : emitE f s = .ok ((), s')) :
    ∃ c rest a, s.stack = c :: rest ∧ f c.asm = .ok a ∧ s' = { s with stack := { c with asm := a } :: rest } := by
  unfold emitE at h
  obtain ⟨c, s1, h1, h2⟩ := M.bind_inv h
  clear h
  obtain ⟨rfl, rest, hs⟩ := getCtx_inv h1
  cases hf : f c.asm with
  | error e => rw [hf] at h2; exact (M.fail_inv h2).elim
  | ok a =>
    rw [hf] at h2
    have h := h2
    obtain ⟨c0, rest0, hs0, rfl⟩ := setCtx_inv h
    rw [hs] at hs0
    cases hs0
    exact ⟨c, rest, a, hs, hf, rfl⟩

/-- Emission of one instruction. -/
theorem moves_instr {s : CState} (hi : Inv s) {c : Ctx} {rest : List Ctx} {a : Asm} {bs : List UInt8} {i : Instr}
    (hs : s.stack = c :: rest) (hd : a.data = c.asm.data ++ bs) (hc : c.asm.constants <+: a.constants)
    (hids : ∀ (code : Bytecode) (name : String) (id : Nat), Const.fn code name id ∈ a.constants →
      id < s.nextId ∧ FewCaptured code)
    (hP : ∀ D : Bytecode, (∀ j : Nat, j < bs.length → D.data[c.len + j]? = bs[j]?) → a.constants <+: D.constants →
      Encodes D c.len (c.len + bs.length) i) :
    Moves s { s with stack := { c with asm := a } :: rest } none [] [] [] (Code.instr i).place ∧
    ({ s with stack := { c with asm := a } :: rest } : CState).env = s.env := by
  have hok := hi c (by rw [hs]; simp)
  refine ⟨⟨⟨c, rest, { c with asm := a }, rest, hs, rfl, ?_, .refl rest⟩, Nat.le_refl _, ?_⟩, ?_⟩
  · exact Em.bytes hok hd hc rfl fun D hb hD _ _ _ _ => hP D hb hD
  · intro x hx
    rcases List.mem_cons.mp hx with rfl | hx
    · exact hok.bytes hd rfl hids
    · exact hi x (by rw [hs]; simp [hx])
  · simp [CState.env, hs, Ctx.erase]

theorem run_instr {s : CState} (hi : Inv s) {c : Ctx} {rest : List Ctx} {a : Asm} {bs : List UInt8} {i : Instr}
    (hs : s.stack = c :: rest) (hd : a.data = c.asm.data ++ bs) (hc : c.asm.constants <+: a.constants)
    (hids : ∀ (code : Bytecode) (name : String) (id : Nat), Const.fn code name id ∈ a.constants →
      id < s.nextId ∧ FewCaptured code)
    (hP : ∀ D : Bytecode, (∀ j : Nat, j < bs.length → D.data[c.len + j]? = bs[j]?) → a.constants <+: D.constants →
      Encodes D c.len (c.len + bs.length) i) :
    Run s { s with stack := { c with asm := a } :: rest } [] (.instr i) ∧
    ({ s with stack := { c with asm := a } :: rest } : CState).env = s.env :=
  (moves_instr hi hs hd hc hids hP).imp Moves.plain id

theorem emit_moves {s s' : CState} (hi : Inv s) {o : Opcode} (h : emit o s = .ok ((), s')) (ho : o.isPlain = true) :
    Moves s s' none [] [] [] (Code.op o).place ∧ s'.env = s.env := by
  obtain ⟨c, rest, a, hs, hf, rfl⟩ := emitE_inv h
  cases hf
  refine moves_instr hi hs (bs := [o.toByte]) rfl List.prefix_rfl (hi c (by rw [hs]; simp)).ids ?_
  intro D hb _
  exact ⟨ho, by simpa using hb 0 (by simp), rfl⟩

theorem emit_run {s s' : CState} (hi : Inv s) {o : Opcode} (h : emit o s = .ok ((), s')) (ho : o.isPlain = true) :
    Run s s' [] (.op o) ∧ s'.env = s.env := (emit_moves hi h ho).imp Moves.plain id

theorem emit1_moves {s s' : CState} (hi : Inv s) {o : Opcode} {n : Nat} (h : emit1 o n s = .ok ((), s'))
    (ho : o.isByte = true) : Moves s s' none [] [] [] (Code.num o n).place ∧ s'.env = s.env := by
  obtain ⟨c, rest, a, hs, hf, rfl⟩ := emitE_inv h
  cases hf
  refine moves_instr hi hs (bs := [o.toByte, UInt8.ofNat n]) (by simp [Asm.op1, Asm.putU8]) List.prefix_rfl
    (hi c (by rw [hs]; simp)).ids ?_
  intro D hb _
  exact ⟨ho, by simpa using hb 0 (by simp), by simpa using hb 1 (by simp), rfl⟩

theorem emit1_run {s s' : CState} (hi : Inv s) {o : Opcode} {n : Nat} (h : emit1 o n s = .ok ((), s'))
    (ho : o.isByte = true) : Run s s' [] (.num o n) ∧ s'.env = s.env := (emit1_moves hi h ho).imp Moves.plain id

/-- The result of `make_constant` for a constant that no different stored constant equals. -/
theorem makeConstant_exact {a a' : Asm} {c : Const} {i : UInt8} (h : a.makeConstant c = .ok (i, a'))
    (hb : ∀ c' ∈ a.constants, c'.beq c = true → c' = c) :
    a'.data = a.data ∧ a.constants <+: a'.constants ∧ a'.constants[i.toNat]? = some c ∧
    ∀ x ∈ a'.constants, x ∈ a.constants ∨ x = c := by
  obtain ⟨hd, ⟨rfl, c', hc', hbeq⟩ | ⟨-, hcs, hi, -⟩⟩ := makeConstant_ok h
  · have := hb c' (List.mem_of_getElem? hc') hbeq
    subst this
    exact ⟨rfl, List.prefix_rfl, hc', fun x hx => .inl hx⟩
  · refine ⟨hd, ⟨[c], hcs.symm⟩, by rw [hcs, hi]; simp, fun x hx => ?_⟩
    rw [hcs] at hx
    simpa using hx

theorem prefix_get_some {α : Type} {a b : List α} (h : a <+: b) {i : Nat} {x : α} (hx : a[i]? = some x) : b[i]? = some x := by
  rw [prefix_get h (List.getElem?_eq_some_iff.mp hx).1, hx]

theorem sym_exact (a : Asm) (name : String) : ∀ c' ∈ a.constants, c'.beq (.sym name) = true → c' = .sym name := by
  intro c' _ hb
  cases c' <;> simp_all [Const.beq]

theorem str_exact (a : Asm) (s : String) : ∀ c' ∈ a.constants, c'.beq (.str s) = true → c' = .str s := by
  intro c' _ hb
  cases c' <;> simp_all [Const.beq]

theorem int_exact (a : Asm) (i : Int) : ∀ c' ∈ a.constants, c'.beq (.int i) = true → c' = .int i := by
  intro c' _ hb
  cases c' <;> simp_all [Const.beq]

theorem emitConst_run {s s' : CState} (hi : Inv s) {o : Opcode} {name : String} (h : emitConst o name s = .ok ((), s'))
    (ho : o.isConst = true) : Run s s' [] (.sym o name) ∧ s'.env = s.env := by
  obtain ⟨c, rest, a, hs, hf, rfl⟩ := emitE_inv h
  obtain ⟨i, a1, hm, rfl⟩ := opConst_ok hf
  obtain ⟨hd, hc, hg, hmem⟩ := makeConstant_exact hm (sym_exact _ _)
  have hids := (hi c (by rw [hs]; simp)).ids
  refine run_instr hi hs (bs := [o.toByte, i]) (by simp [Asm.op1, Asm.putU8, hd]) hc ?_ ?_
  · intro code n id hx
    rcases hmem _ hx with hx | hx
    · exact hids _ _ _ hx
    · cases hx
  · intro D hb hD
    exact ⟨ho, by simpa using hb 0 (by simp), rfl, i, by simpa using hb 1 (by simp), prefix_get_some hD hg⟩

/-- `PUSH_CONST` and `INHERIT_CLASS`: opcode before the constant. -/
theorem opThenConst_run {s s' : CState} (hi : Inv s) {o : Opcode} {k : Const}
    (h : emitE (fun a => a.opThenConst o k) s = .ok ((), s')) (ho : o.isConst = true)
    (hx : ∀ a : Asm, (∀ code name id, Const.fn code name id ∈ a.constants → id < s.nextId) →
      ∀ c' ∈ a.constants, c'.beq k = true → c' = k)
    (hk : ∀ code name id, k = .fn code name id → id < s.nextId ∧ FewCaptured code) :
    Run s s' [] (.instr (.const o k)) ∧ s'.env = s.env := by
  obtain ⟨c, rest, a, hs, hf, rfl⟩ := emitE_inv h
  obtain ⟨i, a1, hm, rfl⟩ := opThenConst_ok hf
  have hids := (hi c (by rw [hs]; simp)).ids
  obtain ⟨hd, hc, hg, hmem⟩ := makeConstant_exact hm (hx _ fun _ _ _ h => (hids _ _ _ h).1)
  refine run_instr hi hs (bs := [o.toByte, i]) (by simp [Asm.op, Asm.putU8, hd]) hc ?_ ?_
  · intro code n id hx
    rcases hmem _ hx with hx | hx
    · exact hids _ _ _ hx
    · exact hk _ _ _ hx.symm
  · intro D hb hD
    exact ⟨ho, by simpa using hb 0 (by simp), rfl, i, by simpa using hb 1 (by simp), prefix_get_some hD hg⟩

theorem inheritClass_run {s s' : CState} (hi : Inv s) {name : String}
    (h : emitE (fun a => a.inheritClass name) s = .ok ((), s')) :
    Run s s' [] (.sym .inheritClass name) ∧ s'.env = s.env :=
  opThenConst_run hi h rfl (fun a _ => sym_exact a name) (fun _ _ _ h => nomatch h)

theorem pushStr_run {s s' : CState} (hi : Inv s) {x : String}
    (h : emitE (fun a => a.pushConst (.str x)) s = .ok ((), s')) :
    Run s s' [] (.instr (.const .pushConst (.str x))) ∧ s'.env = s.env :=
  opThenConst_run hi h rfl (fun a _ => str_exact a x) (fun _ _ _ h => nomatch h)

theorem pushInt_run {s s' : CState} (hi : Inv s) {x : Int}
    (h : emitE (fun a => a.pushConst (.int x)) s = .ok ((), s')) :
    Run s s' [] (.instr (.const .pushConst (.int x))) ∧ s'.env = s.env :=
  opThenConst_run hi h rfl (fun a _ => int_exact a x) (fun _ _ _ h => nomatch h)

theorem pushFloat_run {s s' : CState} (hi : Inv s) {x : Float}
    (h : emitE (fun a => a.pushConst (.float x)) s = .ok ((), s')) :
    ∃ y, (y = x ∨ (y == x) = true) ∧ Run s s' [] (.instr (.const .pushConst (.float y))) ∧ s'.env = s.env := by
  obtain ⟨c, rest, a, hs, hf, rfl⟩ := emitE_inv h
  obtain ⟨i, a1, hm, rfl⟩ := opThenConst_ok hf
  have hids := (hi c (by rw [hs]; simp)).ids
  have key : ∃ y, (y = x ∨ (y == x) = true) ∧ a1.data = (c.asm.op .pushConst).data ∧
      c.asm.constants <+: a1.constants ∧ a1.constants[i.toNat]? = some (.float y) ∧
      ∀ z ∈ a1.constants, z ∈ c.asm.constants ∨ z = .float x := by
    obtain ⟨hd, ⟨rfl, c', hc', hbeq⟩ | ⟨-, hcs, hi', -⟩⟩ := makeConstant_ok hm
    · cases c' with
      | float y => exact ⟨y, .inr (by simpa [Const.beq] using hbeq), rfl, List.prefix_rfl, hc', fun z hz => .inl hz⟩
      | _ => simp [Const.beq] at hbeq
    · refine ⟨x, .inl rfl, hd, ⟨[_], hcs.symm⟩, by rw [hcs, hi']; simp, fun z hz => ?_⟩
      rw [hcs] at hz
      rcases List.mem_append.mp hz with hz | hz
      · exact .inl hz
      · exact .inr (by simpa using hz)
  obtain ⟨y, hy, hd, hc, hg, hmem⟩ := key
  refine ⟨y, hy, run_instr hi hs (bs := [Opcode.pushConst.toByte, i])
    (by simp [Asm.op, Asm.putU8] at hd; simp [Asm.putU8, hd]) hc ?_ ?_⟩
  · intro code n id hx
    rcases hmem _ hx with hx | hx
    · exact hids _ _ _ hx
    · cases hx
  · intro D hb hD
    exact ⟨rfl, by simpa using hb 0 (by simp), rfl, i, by simpa using hb 1 (by simp), prefix_get_some hD hg⟩

theorem fieldToLocal_run {s s' : CState} (hi : Inv s) {name : String} {slot : UInt8}
    (h : emitE (fun a => a.loadFieldToLocal name slot) s = .ok ((), s')) :
    Run s s' [] (.instr (.fieldToLocal name slot)) ∧ s'.env = s.env := by
  obtain ⟨c, rest, a, hs, hf, rfl⟩ := emitE_inv h
  unfold Asm.loadFieldToLocal at hf
  split at hf
  · cases hf
  rename_i a0 h0
  cases hf
  obtain ⟨i, a1, hm, rfl⟩ := opConst_ok h0
  obtain ⟨hd, hc, hg, hmem⟩ := makeConstant_exact hm (sym_exact _ _)
  have hids := (hi c (by rw [hs]; simp)).ids
  refine run_instr hi hs (bs := [Opcode.loadFieldToLocal.toByte, i, slot]) (by simp [Asm.op1, Asm.putU8, hd]) hc ?_ ?_
  · intro code n id hx
    rcases hmem _ hx with hx | hx
    · exact hids _ _ _ hx
    · cases hx
  · intro D hb hD
    exact ⟨by simpa using hb 0 (by simp), rfl, ⟨i, by simpa using hb 1 (by simp), prefix_get_some hD hg⟩,
      by simpa using hb 2 (by simp)⟩

theorem captureBytes_flatMap_length (ups : List UpvalueDescriptor) :
    (ups.flatMap Asm.captureBytes).length = 2 * ups.length := by
  induction ups with
  | nil => rfl
  | cons u us ih => simp [Asm.captureBytes, ih]; omega

/-- The value of a function: its id must be new in the pools. -/
theorem emitFnValue_run {s s' : CState} (hi : Inv s) {fn : Ctx} {name : String} {id : Nat}
    (h : emitFnValue fn name id s = .ok ((), s'))
    (hnew : ∀ c ∈ s.stack, ∀ code n, Const.fn code n id ∉ c.asm.constants) (hid : id < s.nextId)
    (hin : ∀ (code : Bytecode) (n : String) (i : Nat), Const.fn code n i ∈ fn.finish.constants → FewCaptured code) :
    Run s s' [] (.instr (fnInstr fn.finish name id fn.upvalues)) ∧ s'.env = s.env := by
  have hx : ∀ c ∈ s.stack, ∀ c' ∈ c.asm.constants, c'.beq (.fn fn.finish name id) = true → c' = .fn fn.finish name id := by
    intro c hc c' hc' hb
    cases c' with
    | fn code n id' =>
      simp only [Const.beq, beq_iff_eq] at hb
      subst hb
      exact absurd hc' (hnew c hc code n)
    | _ => simp [Const.beq] at hb
  unfold emitFnValue at h
  unfold fnInstr
  split
  · rename_i hu
    simp only [hu, if_true] at h
    obtain ⟨c, rest, a, hs, hf, rfl⟩ := emitE_inv h
    obtain ⟨i, a1, hm, rfl⟩ := opThenConst_ok hf
    have hids := (hi c (by rw [hs]; simp)).ids
    obtain ⟨hd, hc, hg, hmem⟩ := makeConstant_exact hm (hx c (by rw [hs]; simp))
    refine run_instr hi hs (bs := [Opcode.pushConst.toByte, i]) (by simp [Asm.op, Asm.putU8, hd]) hc ?_ ?_
    · intro code n id' hx
      rcases hmem _ hx with hx | hx
      · exact hids _ _ _ hx
      · cases hx
        refine ⟨hid, .mk ?_ hin⟩
        show fn.upvalues.length ≤ 255
        rw [List.isEmpty_iff.1 hu]
        exact Nat.zero_le _
    · intro D hb hD
      exact ⟨rfl, by simpa using hb 0 (by simp), rfl, i, by simpa using hb 1 (by simp), prefix_get_some hD hg⟩
  · rename_i hu
    simp only [hu, Bool.false_eq_true, if_false] at h
    obtain ⟨c, rest, a, hs, hf, rfl⟩ := emitE_inv h
    unfold Asm.closure at hf
    split at hf
    · cases hf
    rename_i a0 h0
    split at hf
    · cases hf
    rename_i hle
    cases hf
    obtain ⟨i, a1, hm, rfl⟩ := opThenConst_ok h0
    have hids := (hi c (by rw [hs]; simp)).ids
    obtain ⟨hd, hc, hg, hmem⟩ := makeConstant_exact hm (hx c (by rw [hs]; simp))
    refine run_instr hi hs (bs := Opcode.createClosure.toByte :: i :: fn.upvalues.flatMap Asm.captureBytes)
      (by simp [Asm.op, Asm.putU8, hd]) hc ?_ ?_
    · intro code n id' hx
      rcases hmem _ hx with hx | hx
      · exact hids _ _ _ hx
      · cases hx; exact ⟨hid, .mk (Nat.le_of_not_gt hle) hin⟩
    · intro D hb hD
      refine ⟨by simpa using hb 0 (by simp), rfl, ?_, ⟨i, by simpa using hb 1 (by simp), prefix_get_some hD hg⟩, ?_⟩
      · simp only [List.length_cons, captureBytes_flatMap_length]; omega
      · intro j hj
        have := hb (j + 2) (by simp only [List.length_cons, captureBytes_flatMap_length]; omega)
        rw [show c.len + 2 + j = c.len + (j + 2) by omega, this]
        simp

end Dice
