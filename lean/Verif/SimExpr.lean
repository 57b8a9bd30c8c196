import Verif.SimNode
import Verif.Floats

/-!
# Literals, names, operators and assignments follow the evaluator
-/

namespace Dice.Sim

open Src (SEnv State Out S Jump)

/-- The functions in a part of code are in the code. -/
macro "hasfn" : tactic => `(tactic| (intro b hb; simp [Code.block, Code.HasFn, hb]))

section
variable {C : Cx} {K : Nat → Prop} {W W1 : Wd} {ts ts1 : List Value} {σ σ1 : State} {m m1 : VM} {w : World} {N : Nat} {R : Prop}
  {g g1 g2 g3 g' : Env} {c c1 c2 c3 : Code} {nd nd1 nd2 : Node} {call : Src.Calls}

theorem Here.left (h : Here C K g g' c W ts R σ m) (h1 : Gen g nd1 c1 g1) (h2 : Gen g1 nd2 c2 g')
    (hf : ∀ b, c1.HasFn b → c.HasFn b) : Here C K g g1 c1 W ts R σ m :=
  ⟨h.good, h.dest.gen h2 (h.good.gen h1).inv, fun b hb => h.fit b (hf b hb), h.seg, h.st, h.ret⟩

theorem Here.only (h : Here C K g g' c W ts R σ m) (hf : ∀ b, c1.HasFn b → c.HasFn b) : Here C K g g' c1 W ts R σ m :=
  ⟨h.good, h.dest, fun b hb => h.fit b (hf b hb), h.seg, h.st, h.ret⟩

theorem Here.noRet (h : Here C K g g' c W ts R σ m) : Here C K g g' c W ts False σ m :=
  { h with ret := False.elim }

/-- The next part, as an operand. -/
theorem Here.right (h : Here C K g g' c W ts R σ m) (h1 : Gen g nd1 c1 g1) (hf : ∀ b, c2.HasFn b → c.HasFn b)
    (hm : Matches g1 W1.seg) (hst : St C K W1 ts1 σ1 m1) : Here C K g1 g' c2 W1 ts1 False σ1 m1 :=
  ⟨h.good.gen h1, h.dest, fun b hb => h.fit b (hf b hb), hm, hst, False.elim⟩

/-- The next part, with nothing pending. -/
theorem Here.right' (h : Here C K g g' c W ts R σ m) (h1 : Gen g nd1 c1 g1) (hn : nd1.grows = 0)
    (hf : ∀ b, c2.HasFn b → c.HasFn b) (hm : Matches g1 W1.seg) (hst : St C K W1 ts σ1 m1) :
    Here C K g1 g' c2 W1 ts R σ1 m1 :=
  ⟨h.good.gen h1, h.dest, fun b hb => h.fit b (hf b hb), hm, hst, fun r => ⟨(h.ret r).1, by rw [h1.temps hn]; exact (h.ret r).2⟩⟩

theorem Here.with (h : Here C K g g' c W ts R σ m) (hf : ∀ b, c1.HasFn b → c.HasFn b) (hst : St C K W ts1 σ1 m1) :
    Here C K g g' c1 W ts1 False σ1 m1 :=
  ⟨h.good, h.dest, fun b hb => h.fit b (hf b hb), h.seg, hst, False.elim⟩

/-- Before a part that is followed by another one. -/
theorem Here.before (h : Here C K g g' c W ts R σ m) (h1 : Gen g1 nd1 c2 g') (hf : ∀ b, c1.HasFn b → c.HasFn b) (inv : StackInv g1) :
    Here C K g g1 c1 W ts R σ m :=
  ⟨h.good, h.dest.gen h1 inv, fun b hb => h.fit b (hf b hb), h.seg, h.st, h.ret⟩

theorem resolve_temps {x : String} {i : Nat} (h : resolveUpvalue x g = some (i, g1)) : g1.temps = g.temps := by
  rw [temps_pending, temps_pending, resolve_pending h]

theorem Here.resolved (h : Here C K g g' c W ts R σ m) {x : String} {i : Nat} (hr : resolveUpvalue x g = some (i, g1))
    (hf : ∀ b, c1.HasFn b → c.HasFn b) : Here C K g1 g' c1 W ts R σ m :=
  ⟨h.good.step (stepRel.resolve hr), h.dest, fun b hb => h.fit b (hf b hb), h.seg.congr (resolve_view hr), h.st,
    fun r => ⟨(h.ret r).1, by rw [resolve_temps hr]; exact (h.ret r).2⟩⟩

/-- An operator, then an instruction, then the end. -/
theorem Sim.bindDone {f : Frame} {ups : Option (List Nat)} {a b : Code} {α : Type} {e : S Value} {k : Value → S α} {r : α → Value} {n n1 : Nat}
    {J : Jump → State → VM → Prop} (hle : W.Le n W1) (hn : n ≤ n1) (hm : Matches g' W1.seg)
    (h : Sim N R (exec w f ups a) m (e σ) (Norm (Done C K W1 ts n1)) J)
    (hk : ∀ u W2 σ2 m2, W1.Le n1 W2 → W2.seg = W1.seg → n1 ≤ σ2.store.length → St C K W2 (u :: ts) σ2 m2 →
      Sim N R (exec w f ups b) m2 (k u σ2) (Norm fun a => Done C K W2 ts1 σ2.store.length (r a)) J) :
    Sim N R (exec w f ups (.seq a b)) m ((e >>= fun u => k u >>= fun x => pure (r x, W1.seg ++ C.out)) σ)
      (Norm (Post C K W g' ts1 n)) J := by
  refine Sim.subV (r := fun v => v) h fun u W2 σ2 m2 h1 h2 h3 h4 => ?_
  exact Sim.finish hle hn hm (Sim.doneBack h1 h2 h3 (hk u W2 σ2 m2 h1 h2 h3 h4))

/-! ## Literals -/

/-- A literal. -/
theorem follows_push {i : Instr} {v u : Value} (e : Src.Role → SEnv → S (Value × SEnv)) (he : ∀ r ρ, e r ρ = pure (v, ρ))
    (hv : v.Plain) (hu : v = u)
    (hs : ∀ (w : World) (f : Frame) (ups : Option (List Nat)) (m : VM), ∃ p,
      step w (callsAt w 0) i.operands f ups i.opcode 0 m = (do Dice.push u; pure (Next.goto p)) m) :
    FollowsE w N g e (.instr i) g := by
  intro C K W ts R σ m h
  try dsimp only
  rw [he]
  subst hu
  obtain ⟨p, hp⟩ := hs w C.f C.ups m
  exact Sim.value (.refl _ _) (Nat.le_refl _) h.seg (Sim.op0 (h.st.pushes (.plain hv) hp))

theorem case_unit : FollowsE w N g (Src.eval w call · N false .unit) (.op .pushUnit) g :=
  follows_push (Src.eval w call · N false .unit) (fun _ ρ => by rw [Src.eval]) (v := .unit) trivial rfl fun _ _ _ _ => ⟨_, rfl⟩

theorem case_null : FollowsE w N g (Src.eval w call · N false .null) (.op .pushNull) g :=
  follows_push (Src.eval w call · N false .null) (fun _ ρ => by rw [Src.eval]) (v := .null) trivial rfl fun _ _ _ _ => ⟨_, rfl⟩

theorem case_bool {b : Bool} : FollowsE w N g (Src.eval w call · N false (.bool b)) (.op (if b then .pushTrue else .pushFalse)) g := by
  cases b
  · exact follows_push (Src.eval w call · N false (.bool false)) (fun _ ρ => by rw [Src.eval]) (v := .bool false) trivial rfl fun _ _ _ _ => ⟨_, rfl⟩
  · exact follows_push (Src.eval w call · N false (.bool true)) (fun _ ρ => by rw [Src.eval]) (v := .bool true) trivial rfl fun _ _ _ _ => ⟨_, rfl⟩

theorem case_int {i : Int} : FollowsE w N g (Src.eval w call · N false (.int i)) (intCode i) g := by
  unfold intCode
  split
  · rename_i h; subst h
    exact follows_push (Src.eval w call · N false (.int 0)) (fun _ ρ => by rw [Src.eval]) (v := .int 0) trivial rfl fun _ _ _ _ => ⟨_, rfl⟩
  · split
    · rename_i h; subst h
      exact follows_push (Src.eval w call · N false (.int 1)) (fun _ ρ => by rw [Src.eval]) (v := .int 1) trivial rfl fun _ _ _ _ => ⟨_, rfl⟩
    · exact follows_push (Src.eval w call · N false (.int i)) (fun _ ρ => by rw [Src.eval]) (v := .int i) trivial rfl fun _ _ _ _ => ⟨_, rfl⟩

theorem case_float {f : Float} {c : Code} (h : FloatCode f c) : FollowsE w N g (Src.eval w call · N false (.float f)) c g := by
  by_cases hz : f = -0.0
  · intro _
    dsimp only
    rw [Src.eval, if_pos hz]
    exact .stuck
  · have he : ∀ r ρ, Src.eval w call r N false (.float f) ρ = pure (.float f, ρ) := fun _ _ => by rw [Src.eval, if_neg hz]
    rcases literal_value h hz with ⟨rfl, rfl⟩ | ⟨rfl, rfl⟩ | rfl
    · exact follows_push (Src.eval w call · N false (.float _)) he (v := .float 0.0) trivial rfl fun _ _ _ _ => ⟨_, rfl⟩
    · exact follows_push (Src.eval w call · N false (.float _)) he (v := .float 1.0) trivial rfl fun _ _ _ _ => ⟨_, rfl⟩
    · exact follows_push (Src.eval w call · N false (.float f)) he (v := .float f) trivial rfl fun _ _ _ _ => ⟨_, rfl⟩

theorem case_str {s : String} : FollowsE w N g (Src.eval w call · N false (.str s)) (.instr (.const .pushConst (.str s))) g :=
  follows_push (Src.eval w call · N false (.str s)) (fun _ ρ => by rw [Src.eval]) (v := .str s) trivial rfl fun _ _ _ _ => ⟨_, rfl⟩

/-! ## Names -/

/-- The location of a local variable. -/
theorem Here.local (h : Here C K g g' c W ts R σ m) {x : String} {v : ScopeVar} (hv : g.lookup x = some v) :
    ∃ l, (W.seg ++ C.out).lookup x = some l ∧ slotLoc W.seg v.slot = some l := by
  obtain ⟨l, h1, h2⟩ := h.seg.lookup_some h.good.inv hv
  exact ⟨l, by rw [List.lookup_append, h1]; rfl, h2⟩

theorem Here.slot256 (h : Here C K g g' c W ts R σ m) (hg : Gen g nd c1 g') {s l : Nat} (hs : slotLoc W.seg s = some l) : s < 256 := by
  have h1 := slotLoc_lt hs
  have h2 := (h.dest.gen hg h.good.inv).slots
  have h3 := Env.vars_le h.good.inv
  have h4 := h.seg.length
  omega

/-- The location of a captured variable. -/
theorem Good.captured (h0 : Good C g) (hd : Dest C K g') (hm : Matches g W.seg) {x : String} {i : Nat} (hv : g.lookup x = none)
    (hr : resolveUpvalue x g = some (i, g1)) (hs : Step g1 g') :
    ∃ l, (W.seg ++ C.out).lookup x = some l ∧ C.locs i = some l ∧ i < 256 := by
  obtain ⟨cur, rest, rfl⟩ : ∃ cur rest, g = cur :: rest := by
    cases g with
    | nil => exact absurd rfl h0.ne
    | cons c r => exact ⟨c, r, rfl⟩
  obtain ⟨cur', rest', d, l, rfl, h1, h2, h3⟩ := resolve_loc x cur rest C.segs h0.inv.2.2.2 h0.outer i _ hr
  refine ⟨l, ?_, ?_⟩
  · rw [List.lookup_append, hm.lookup_none hv]; exact h3
  · obtain ⟨-, -, h4, -⟩ := hs
    match g', h4, hd with
    | c' :: r', h4, hd =>
      have h5 := prefix_getElem? h4.1 h1
      refine ⟨hd.locs c' r' i d l rfl h5 (locOf_mono h4.2 h2), ?_⟩
      have := (List.getElem?_eq_some_iff.1 h5).1
      have := hd.captures c' r' rfl
      omega

theorem Here.captured (h : Here C K g g' c W ts R σ m) {x : String} {i : Nat} (hv : g.lookup x = none)
    (hr : resolveUpvalue x g = some (i, g1)) (hs : Step g1 g') :
    ∃ l, (W.seg ++ C.out).lookup x = some l ∧ C.locs i = some l ∧ i < 256 :=
  h.good.captured h.dest h.seg hv hr hs

/-- The load of a name. -/
theorem local_sim {x : String} {v : ScopeVar} (hv : g.lookup x = some v) (good : Good C g) (hd : Dest C K g) (hm : Matches g W.seg)
    (hst : St C K W ts σ m) :
    SimV (istep w 0 C.f C.ups (.num .loadLocal v.slot)) m (Src.readVar (W.seg ++ C.out) x σ)
      (Norm fun v σ' m' => σ' = σ ∧ St C K W (v :: ts) σ m') := by
  obtain ⟨l, h1, h2⟩ := hm.lookup_some good.inv hv
  have h3 : (W.seg ++ C.out).lookup x = some l := by rw [List.lookup_append, h1]; rfl
  unfold Src.readVar
  rw [h3]
  have k1 := slotLoc_lt h2
  have k2 := hd.slots
  have k3 := Env.vars_le good.inv
  have k4 := hm.length
  exact hst.loadLocalOp h2 (by omega)

theorem ident_sim {x : String} {i : Instr} (hi : IdentGen g x i g') (good : Good C g) (hd : Dest C K g') (hm : Matches g W.seg)
    (hst : St C K W ts σ m) :
    SimV (istep w 0 C.f C.ups i) m (Src.readVar (W.seg ++ C.out) x σ)
      (Norm fun v σ' m' => σ' = σ ∧ St C K W (v :: ts) σ m') := by
  have h : Here C K g g' .nop W ts False σ m := ⟨good, hd, fun _ h => h.elim, hm, hst, False.elim⟩
  unfold Src.readVar
  have hg : Gen g (.expr (.ident x)) (.instr i) g' := .ident hi
  cases hi with
  | «local» hv _ =>
    obtain ⟨l, h1, h2⟩ := h.local hv
    rw [h1]
    exact h.st.loadLocalOp h2 (h.slot256 hg h2)
  | captured hv hr =>
    obtain ⟨l, h1, h2, h3⟩ := h.captured hv hr (stepRel.refl _)
    rw [h1]
    exact h.st.loadUpvalueOp h2 h3
  | global hv hr =>
    have : (W.seg ++ C.out).lookup x = none := by
      have h0 := h.good
      cases g with
      | nil => exact absurd rfl h0.ne
      | cons cur rest =>
        rw [List.lookup_append, h.seg.lookup_none hv]
        exact resolve_loc_none x cur rest C.segs h0.outer hr
    rw [this]
    exact h.st.loadGlobalOp x

theorem case_ident {x : String} {i : Instr} (hi : IdentGen g x i g') :
    FollowsE w N g (Src.eval w call · N false (.ident x)) (.instr i) g' := by
  intro C K W ts R σ m h
  try dsimp only
  rw [Src.eval]
  exact Sim.finish (.refl _ _) (Nat.le_refl _) (h.seg.congr hi.view) (r := fun v => v)
    (Sim.op1 (ident_sim hi h.good h.dest h.seg h.st))

/-! ## Functions -/

theorem case_anonFn {args : List FnArg} {ret : Option TypeAnn} {body : Expr} {fn : Ctx} {bc : Bytecode} {name : String} {id : Nat}
    (hb : Gen (g.pushFn (.function ret)) (.fnBody .function args (bodyExprs body) (bodyTrailing body)) c (fn :: g'))
    (hc : FnCode fn c bc) :
    FollowsE w N g (Src.eval w call · N false (.anonFn args ret body)) (.instr (fnInstr bc name id fn.upvalues)) g' := by
  intro C K W ts R σ m h
  try dsimp only
  rw [Src.eval]
  refine Sim.finish (.refl _ _) (Nat.le_refl _) (h.seg.congr hb.outer.view) (r := fun v => v) ?_
  refine .instr (h.st.newFnOp (k := .function) h.good hb hc (h.fit bc ?_) h.dest h.seg)
  unfold fnInstr
  split <;> rfl

theorem case_opDecl {op : OverOp} {args : List FnArg} {ret : Option TypeAnn} {body : Expr} {fn : Ctx} {bc : Bytecode} {id : Nat}
    (hb : Gen (g.pushFn (.function ret)) (.fnBody .function args (bodyExprs body) (bodyTrailing body)) c (fn :: g'))
    (hc : FnCode fn c bc) :
    FollowsE w N g (Src.eval w call · N false (.opDecl op args ret body))
      (.block [.instr (fnInstr bc op.name id fn.upvalues), .sym .storeGlobal op.name, .op .pushUnit]) g' := by
  intro C K W ts R σ m h
  try dsimp only
  rw [Src.eval]
  refine Sim.subV (ts := ts) (W := W) (K := K) (C := C) (n := σ.store.length) (r := fun v => v) (.instr (h.st.newFnOp (k := .function) h.good hb hc (h.fit bc ?_) h.dest h.seg)) ?_
  · refine .inl ?_
    unfold fnInstr
    split <;> rfl
  · intro v W1 σ1 m1 h1 h2 h3 h4
    refine Sim.seq (.instr (h4.storeGlobalOp op.name)) ?_
    rintro ⟨⟩ σ2 m2 ⟨h5, h6⟩
    refine .last ?_
    rw [← h2]
    refine Sim.value h1 (Nat.le_trans h3 h5) (by rw [h2]; exact h.seg.congr hb.outer.view) (Sim.op0 (h6.pushes (.plain (v := .unit) trivial) rfl))

/-! ## Operators -/

theorem case_unary {op : UnaryOp} {e : Expr} (ih : FollowsE w N g (Src.eval w call · N false e) c g') :
    FollowsE w N g (Src.eval w call · N false (.unary op e)) (.seq c (.op (match op with | .negate => .negate | .not => .not))) g' := by
  intro C K W ts R σ m h
  try dsimp only
  rw [Src.eval]
  refine Sim.sub (ih (h.only (by hasfn))) fun v W1 σ1 m1 h1 h2 h3 h4 => ?_
  refine Sim.finish h1 h2 h3 (r := fun v => v) ?_
  cases op
  · exact Sim.op1 h4.negateOp
  · exact Sim.op1 h4.notOp

theorem strictOp_opcode (op : BinaryOp) : Src.strictOp op = BinaryOp.opcode op := by cases op <;> rfl

theorem isBinary_opcode {op : BinaryOp} {o : Opcode} (h : BinaryOp.opcode op = some o) : IsBinary o := by
  cases op <;> cases h <;> exact fun _ _ _ _ _ _ => rfl

theorem case_binary (hc : CallSpec w N call) {op : BinaryOp} {a b : Expr} {o : Opcode} (ho : BinaryOp.opcode op = some o)
    (g1' : Gen g (.expr a) c1 g1) (g2' : Gen g1 (.expr b) c2 g') (ih1 : FollowsE w N g (Src.eval w call · N false a) c1 g1)
    (ih2 : FollowsE w N g1 (Src.eval w call · N false b) c2 g') :
    FollowsE w N g (Src.eval w call · N false (.binary op a b)) (.block [c1, c2, .op o]) g' := by
  intro C K W ts R σ m h
  try dsimp only
  have e : Src.eval w call C.role N false (.binary op a b) (W.seg ++ C.out) = (do
      let (l, ρ) ← Src.eval w call C.role N false a (W.seg ++ C.out)
      let (r, ρ) ← S.operand (Src.eval w call C.role N false b ρ)
      let v ← Src.binary w call o l r
      pure (v, ρ)) := by
    have hs := (strictOp_opcode op).trans ho
    cases op <;> first | (rw [Src.eval, hs]) | cases hs
    all_goals simp
  rw [e]
  refine Sim.sub (ih1 (h.left g1' g2' (by hasfn))) fun v W1 σ1 m1 h1 h2 h3 h4 => ?_
  refine Sim.subOp (ih2 (h.right g1' (by hasfn) h3 h4)) fun u W2 σ2 m2 k1 k2 k3 k4 => .last ?_
  exact Sim.finish (h1.trans h2 k1) (Nat.le_trans h2 k2) k3 (r := fun v => v) (k4.operatorOp hc (isBinary_opcode ho))

theorem case_pipeline (hc : CallSpec w N call) {a b : Expr}
    (g1' : Gen g (.expr b) c1 g1) (g2' : Gen g1 (.expr a) c2 g') (ih1 : FollowsE w N g (Src.eval w call · N false b) c1 g1)
    (ih2 : FollowsE w N g1 (Src.eval w call · N false a) c2 g') :
    FollowsE w N g (Src.eval w call · N false (.binary .pipeline a b)) (.block [c1, c2, .num .call 1]) g' := by
  intro C K W ts R σ m h
  try dsimp only
  rw [Src.eval]
  refine Sim.sub (ih1 (h.left g1' g2' (by hasfn))) fun v W1 σ1 m1 h1 h2 h3 h4 => ?_
  refine Sim.subOp (ih2 (h.right g1' (by hasfn) h3 h4)) fun u W2 σ2 m2 k1 k2 k3 k4 => .last ?_
  exact Sim.finish (h1.trans h2 k1) (Nat.le_trans h2 k2) k3 (r := fun v => v) (St.callOp hc (vs := [u]) (by simp) k4)

/-! ## Assignment -/

theorem updateOp_opcode (op : AssignOp) : Src.updateOp op = AssignOp.opcode op := by cases op <;> rfl

theorem isBinary_update {op : AssignOp} {o : Opcode} (h : AssignOp.opcode op = some o) : IsBinary o := by
  cases op <;> cases h <;> exact fun _ _ _ _ _ _ => rfl

/-- The slot of a variable is still there after an expression. -/
theorem Wd.Le.slot {n s l : Nat} (h : W.Le n W1) (hs : slotLoc W.seg s = some l) : slotLoc W1.seg s = some l := by
  obtain ⟨ext, h1, -⟩ := h.seg
  rw [h1, slotLoc_append _ _ _ (slotLoc_lt hs)]; exact hs

theorem case_assignLocal {x : String} {rhs : Expr} {v : ScopeVar} (hv : g.lookup x = some v) (hg : Gen g (.expr rhs) c g')
    (ih : FollowsE w N g (Src.eval w call · N false rhs) c g') :
    FollowsE w N g (Src.eval w call · N false (.assign .assign (.ident x) rhs)) (.seq c (.num .assignLocal v.slot)) g' := by
  intro C K W ts R σ m h
  try dsimp only
  obtain ⟨l, hl, hs⟩ := h.local hv
  have hb := h.slot256 hg hs
  rw [Src.eval, hl]
  simp only [Src.updateOp]
  refine Sim.sub (ih (h.only (by hasfn))) fun v W1 σ1 m1 h1 h2 h3 h4 => ?_
  exact Sim.finish h1 h2 h3 (r := fun _ => .unit) (Sim.op2 (h4.assignLocalOp (h1.slot hs) hb))

theorem case_updateLocal (hc : CallSpec w N call) {op : AssignOp} {x : String} {rhs : Expr} {v : ScopeVar} {o : Opcode}
    (hv : g.lookup x = some v) (ho : AssignOp.opcode op = some o) (hg : Gen g (.expr rhs) c g')
    (ih : FollowsE w N g (Src.eval w call · N false rhs) c g') :
    FollowsE w N g (Src.eval w call · N false (.assign op (.ident x) rhs))
      (.block [.num .loadLocal v.slot, c, .op o, .num .assignLocal v.slot]) g' := by
  intro C K W ts R σ m h
  try dsimp only
  obtain ⟨l, hl, hs⟩ := h.local hv
  have hb := h.slot256 hg hs
  rw [Src.eval, hl, updateOp_opcode, ho]
  simp only
  refine Sim.seqI (r := fun v => v) (h.st.loadLocalOp hs hb) fun a m1 h1 => ?_
  refine Sim.subOp (ih (h.with (by hasfn) h1)) fun v W2 σ2 m2 k1 k2 k3 k4 => ?_
  refine Sim.bindDone k1 k2 k3 (k4.operatorOp hc (isBinary_update ho)) fun u W3 σ3 m3 l1 l2 l3 l4 => .last ?_
  exact Sim.op2 (l4.assignLocalOp (by rw [l2]; exact k1.slot hs) hb)

theorem case_assignCaptured {x : String} {rhs : Expr} {i : Nat} (hv : g.lookup x = none) (hr : resolveUpvalue x g = some (i, g1))
    (hg : Gen g1 (.expr rhs) c g') (ih : FollowsE w N g1 (Src.eval w call · N false rhs) c g') :
    FollowsE w N g (Src.eval w call · N false (.assign .assign (.ident x) rhs)) (.seq c (.num .assignUpvalue i)) g' := by
  intro C K W ts R σ m h
  try dsimp only
  obtain ⟨l, hl, hs, hb⟩ := h.captured hv hr (hg.rel stepRel)
  rw [Src.eval, hl]
  simp only [Src.updateOp]
  refine Sim.sub (ih (h.resolved hr (by hasfn))) fun v W1 σ1 m1 h1 h2 h3 h4 => ?_
  exact Sim.finish h1 h2 h3 (r := fun _ => .unit) (Sim.op2 (h4.assignUpvalueOp hs hb))

theorem case_updateCaptured (hc : CallSpec w N call) {op : AssignOp} {x : String} {rhs : Expr} {i : Nat} {o : Opcode}
    (hv : g.lookup x = none) (hr : resolveUpvalue x g = some (i, g1)) (ho : AssignOp.opcode op = some o)
    (hg : Gen g1 (.expr rhs) c g') (ih : FollowsE w N g1 (Src.eval w call · N false rhs) c g') :
    FollowsE w N g (Src.eval w call · N false (.assign op (.ident x) rhs))
      (.block [.num .loadUpvalue i, c, .op o, .num .assignUpvalue i]) g' := by
  intro C K W ts R σ m h
  try dsimp only
  obtain ⟨l, hl, hs, hb⟩ := h.captured hv hr (hg.rel stepRel)
  rw [Src.eval, hl, updateOp_opcode, ho]
  simp only
  refine Sim.seqI (r := fun v => v) (h.st.loadUpvalueOp hs hb) fun a m1 h1 => ?_
  refine Sim.subOp (ih ((h.resolved hr (by hasfn)).with (fun _ h => h) h1)) fun v W2 σ2 m2 k1 k2 k3 k4 => ?_
  refine Sim.bindDone k1 k2 k3 (k4.operatorOp hc (isBinary_update ho)) fun u W3 σ3 m3 l1 l2 l3 l4 => .last ?_
  exact Sim.op2 (l4.assignUpvalueOp hs hb)

theorem case_assignField {e rhs : Expr} {f : String} (g1' : Gen g (.expr e) c1 g1) (g2' : Gen g1 (.expr rhs) c2 g')
    (ih1 : FollowsE w N g (Src.eval w call · N false e) c1 g1) (ih2 : FollowsE w N g1 (Src.eval w call · N false rhs) c2 g') :
    FollowsE w N g (Src.eval w call · N false (.assign .assign (.field e f) rhs)) (.block [c1, c2, .sym .storeField f]) g' := by
  intro C K W ts R σ m h
  try dsimp only
  rw [Src.eval]
  simp only [Src.updateOp]
  refine Sim.sub (ih1 (h.left g1' g2' (by hasfn))) fun o W1 σ1 m1 h1 h2 h3 h4 => ?_
  refine Sim.subOp (ih2 (h.right g1' (by hasfn) h3 h4)) fun v W2 σ2 m2 k1 k2 k3 k4 => .last ?_
  exact Sim.finish (h1.trans h2 k1) (Nat.le_trans h2 k2) k3 (r := fun _ => v) (Sim.op2 (k4.storeFieldOp f))

theorem case_updateField (hc : CallSpec w N call) {op : AssignOp} {e rhs : Expr} {f : String} {o : Opcode}
    (ho : AssignOp.opcode op = some o) (g1' : Gen g (.expr e) c1 g1) (g2' : Gen g1 (.expr rhs) c2 g')
    (ih1 : FollowsE w N g (Src.eval w call · N false e) c1 g1) (ih2 : FollowsE w N g1 (Src.eval w call · N false rhs) c2 g') :
    FollowsE w N g (Src.eval w call · N false (.assign op (.field e f) rhs))
      (.block [c1, .num .dup 0, .sym .loadField f, c2, .op o, .sym .assignField f]) g' := by
  intro C K W ts R σ m h
  try dsimp only
  rw [Src.eval, updateOp_opcode, ho]
  simp only
  refine Sim.sub (ih1 (h.left g1' g2' (by hasfn))) fun b W1 σ1 m1 h1 h2 h3 h4 => ?_
  refine Sim.step (h4.dupOp (n := 0) rfl (by omega)) fun m2 h5 => ?_
  refine Sim.seqI (r := fun v => v) (h5.loadFieldOp f) fun a m3 h6 => ?_
  refine Sim.subOp (ih2 (h.right g1' (by hasfn) h3 h6)) fun v W2 σ2 m2 k1 k2 k3 k4 => ?_
  refine Sim.bindDone (h1.trans h2 k1) (Nat.le_trans h2 k2) k3 (k4.operatorOp hc (isBinary_update ho))
    fun u W3 σ3 m3 l1 l2 l3 l4 => .last ?_
  exact Sim.op2 (l4.assignFieldOp f)

theorem case_assignIndex {e i rhs : Expr} (g1' : Gen g (.expr e) c1 g1) (g2' : Gen g1 (.expr i) c2 g2) (g3' : Gen g2 (.expr rhs) c3 g')
    (ih1 : FollowsE w N g (Src.eval w call · N false e) c1 g1) (ih2 : FollowsE w N g1 (Src.eval w call · N false i) c2 g2)
    (ih3 : FollowsE w N g2 (Src.eval w call · N false rhs) c3 g') :
    FollowsE w N g (Src.eval w call · N false (.assign .assign (.index e i) rhs)) (.block [c1, c2, c3, .op .assignIndex]) g' := by
  intro C K W ts R σ m h
  try dsimp only
  rw [Src.eval]
  simp only [Src.updateOp]
  have hh := h.before g3' (fun _ h => h) ((h.good.gen g1').gen g2').inv
  refine Sim.sub (ih1 (hh.left g1' g2' (by hasfn))) fun o W1 σ1 m1 h1 h2 h3 h4 => ?_
  refine Sim.subOp (ih2 (hh.right g1' (by hasfn) h3 h4)) fun v W2 σ2 m2 k1 k2 k3 k4 => ?_
  refine Sim.subOp (ih3 ((h.right g1' (fun _ h => h) h3 h4).right g2' (by hasfn) k3 k4)) fun v W3 σ3 m3 l1 l2 l3 l4 => .last ?_
  exact Sim.finish ((h1.trans h2 k1).trans (Nat.le_trans h2 k2) l1) (Nat.le_trans h2 (Nat.le_trans k2 l2)) l3 (r := fun _ => .unit)
    (Sim.op2 l4.assignIndexOp)

theorem case_updateIndex (hc : CallSpec w N call) {op : AssignOp} {e i rhs : Expr} {o : Opcode} (ho : AssignOp.opcode op = some o)
    (g1' : Gen g (.expr e) c1 g1) (g2' : Gen g1 (.expr i) c2 g2) (g3' : Gen g2 (.expr rhs) c3 g')
    (ih1 : FollowsE w N g (Src.eval w call · N false e) c1 g1) (ih2 : FollowsE w N g1 (Src.eval w call · N false i) c2 g2)
    (ih3 : FollowsE w N g2 (Src.eval w call · N false rhs) c3 g') :
    FollowsE w N g (Src.eval w call · N false (.assign op (.index e i) rhs))
      (.block [c1, c2, .num .dup 1, .num .dup 1, .op .loadIndex, c3, .op o, .op .assignIndex]) g' := by
  intro C K W ts R σ m h
  try dsimp only
  rw [Src.eval, updateOp_opcode, ho]
  simp only
  have hh := h.before g3' (fun _ h => h) ((h.good.gen g1').gen g2').inv
  refine Sim.sub (ih1 (hh.left g1' g2' (by hasfn))) fun o W1 σ1 m1 h1 h2 h3 h4 => ?_
  refine Sim.subOp (ih2 (hh.right g1' (by hasfn) h3 h4)) fun v W2 σ2 m2 k1 k2 k3 k4 => ?_
  refine Sim.step (k4.dupOp (n := 1) rfl (by omega)) fun m3 k5 => ?_
  refine Sim.step (k5.dupOp (n := 1) rfl (by omega)) fun m4 k6 => ?_
  refine Sim.seqI (r := fun v => v) k6.loadIndexOp fun a m5 k7 => ?_
  refine Sim.subOp (ih3 ((h.right g1' (fun _ h => h) h3 h4).right g2' (by hasfn) k3 k7)) fun v W3 σ3 m3 l1 l2 l3 l4 => ?_
  refine Sim.bindDone ((h1.trans h2 k1).trans (Nat.le_trans h2 k2) l1) (Nat.le_trans h2 (Nat.le_trans k2 l2)) l3
    (l4.operatorOp hc (isBinary_update ho)) fun u W4 σ4 m4 p1 p2 p3 p4 => .last ?_
  exact Sim.op2 p4.assignIndexOp

end

end Dice.Sim
