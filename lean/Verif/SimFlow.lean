import Verif.SimExpr

/-!
# Conditions, chains, lists, declarations and jumps follow the evaluator
-/

namespace Dice.Sim

open Src (SEnv State Out S Jump)

section
variable {C : Cx} {K : Nat → Prop} {W W1 : Wd} {ts ts1 : List Value} {σ σ1 : State} {m m1 : VM} {w : World} {N : Nat} {R : Prop}
  {g g1 g2 g3 g' : Env} {c c1 c2 c3 : Code} {nd nd1 nd2 : Node} {call : Src.Calls} {n : Nat}

section
variable {α : Type} {x : X} {Q : α → State → Sig → VM → Prop} {J : Jump → State → VM → Prop}

theorem Sim.guard {b : Bool} {e : S α} (h : b = true → Sim N R x m (e σ) Q J) : Sim N R x m (S.guard b e σ) Q J := by
  by_cases hb : b = true
  · rw [show S.guard b e σ = e σ from congrFun (guard_pos hb) σ]; exact h hb
  · rw [show S.guard b e σ = S.stuck σ from congrFun (guard_neg hb) σ]; exact .stuck

theorem Sim.ite {b : Bool} {e e' : S α} (h1 : b = true → Sim N R x m (e σ) Q J) (h2 : b = false → Sim N R x m (e' σ) Q J) :
    Sim N R x m ((if b = true then e else e' : S α) σ) Q J := by
  cases b
  · exact h2 rfl
  · exact h1 rfl

theorem Post.env {r : Value × SEnv} (hv : g'.view = g1.view) (h : Post C K W g1 ts n r σ m) : Post C K W g' ts n r σ m := by
  obtain ⟨W', h1, h2, h3, h4, h5⟩ := h
  exact ⟨W', h1, h2, h3, h4.congr hv, h5⟩

theorem Sim.env {o : Out (Value × SEnv) × State} (hv : g'.view = g1.view) (h : Sim N R x m o (Norm (Post C K W g1 ts n)) J) :
    Sim N R x m o (Norm (Post C K W g' ts n)) J :=
  h.post fun _ _ _ _ h => ⟨h.1, h.2.env hv⟩

end

/-! ## Conditions -/

theorem boolResult {v : Value} (h : St C K W (v :: ts) σ m) {J : Jump → State → VM → Prop} :
    Sim N R (exec w C.f C.ups (.op .assertBool)) m (Src.operandBool v σ)
      (Norm fun b => Done C K W ts σ.store.length (.bool b)) J :=
  .instr (h.assertBoolOp.mono (by
    rintro b _ s m ⟨rfl, rfl, rfl, h⟩
    exact ⟨rfl, .same (Nat.le_refl _) h⟩))

theorem case_and {a b : Expr} (g1' : Gen g (.expr a) c1 g1) (g2' : Gen g1 (.expr b) c2 g')
    (ih1 : FollowsE w N g (Src.eval w call · N false a) c1 g1) (ih2 : FollowsE w N g1 (Src.eval w call · N false b) c2 g') :
    FollowsE w N g (Src.eval w call · N false (.binary .logicalAnd a b))
      (.block [c1, .num .dup 0, .op .assertBool, .skipIf false (.block [.op .pop, c2, .op .assertBool])]) g' := by
  intro C K W ts R σ m h
  try dsimp only
  rw [Src.eval]
  refine Sim.guard fun hd => ?_
  have hv := g2'.still (h.good.gen g1').inv (show Src.declares b = false by simpa using hd)
  refine Sim.sub (ih1 (h.left g1' g2' (by hasfn))) fun v W1 σ1 m1 h1 h2 h3 h4 => ?_
  refine Sim.step (h4.dupOp (n := 0) rfl (by omega)) fun m2 h5 => ?_
  refine Sim.seq (.instr h5.assertBoolOp) ?_
  rintro b' _ m3 ⟨rfl, rfl, h6⟩
  refine .last (.skipIf (h6.popKnown.mono ?_))
  rintro b' m4 ⟨rfl, h7⟩
  constructor
  · rintro rfl
    exact .nop ⟨rfl, W1, h1, h2, rfl, h3.congr hv, h7⟩
  · intro hb
    have : b' = true := by simpa using hb
    subst this
    refine Sim.step h7.popOp fun m5 h8 => ?_
    refine Sim.sub (Sim.back h1 h2 (ih2 (h.right' g1' rfl (by hasfn) h3 h8))) fun u W2 σ2 m2 k1 k2 k3 k4 => .last ?_
    exact Sim.finish k1 k2 k3 (boolResult k4)

theorem case_or {a b : Expr} (g1' : Gen g (.expr a) c1 g1) (g2' : Gen g1 (.expr b) c2 g')
    (ih1 : FollowsE w N g (Src.eval w call · N false a) c1 g1) (ih2 : FollowsE w N g1 (Src.eval w call · N false b) c2 g') :
    FollowsE w N g (Src.eval w call · N false (.binary .logicalOr a b))
      (.block [c1, .num .dup 0, .op .assertBool, .skipIf true (.block [.op .pop, c2, .op .assertBool])]) g' := by
  intro C K W ts R σ m h
  try dsimp only
  rw [Src.eval]
  refine Sim.guard fun hd => ?_
  have hv := g2'.still (h.good.gen g1').inv (show Src.declares b = false by simpa using hd)
  refine Sim.sub (ih1 (h.left g1' g2' (by hasfn))) fun v W1 σ1 m1 h1 h2 h3 h4 => ?_
  refine Sim.step (h4.dupOp (n := 0) rfl (by omega)) fun m2 h5 => ?_
  refine Sim.seq (.instr h5.assertBoolOp) ?_
  rintro b' _ m3 ⟨rfl, rfl, h6⟩
  refine .last (.skipIf (h6.popKnown.mono ?_))
  rintro b' m4 ⟨rfl, h7⟩
  constructor
  · rintro rfl
    exact .nop ⟨rfl, W1, h1, h2, rfl, h3.congr hv, h7⟩
  · intro hb
    have : b' = false := by simpa using hb
    subst this
    refine Sim.step h7.popOp fun m5 h8 => ?_
    refine Sim.sub (Sim.back h1 h2 (ih2 (h.right' g1' rfl (by hasfn) h3 h8))) fun u W2 σ2 m2 k1 k2 k3 k4 => .last ?_
    exact Sim.finish k1 k2 k3 (boolResult k4)

theorem binDecide_null (w : World) (v : Value) : binDecide w .equal v .null = .value (.bool v.isNull) := by
  cases v <;> rfl

/-- The comparison with null. -/
theorem St.equalNull {v : Value} (h : St C K W (.null :: v :: ts) σ m) :
    Does (istep w 0 C.f C.ups (.op .equal)) m fun s m1 => s = .normal ∧ St C K W (.bool v.isNull :: ts) σ m1 := by
  refine .istep ?_
  have key : Does (binaryOp w (callsAt w 0).callFn .equal) m fun _ m1 => St C K W (.bool v.isNull :: ts) σ m1 := by
    refine h.pop.bind ?_
    rintro u m1 ⟨hu, h1⟩
    refine (h1.peek (i := 0) rfl).bind ?_
    rintro u' m1 ⟨hu', rfl⟩
    rw [← VRel.binDecide hu' hu, binDecide_null]
    exact h1.poke (.plain (v := .bool v.isNull) trivial)
  exact key.bind fun _ _ h => .pure ⟨rfl, h⟩

theorem case_coalesce {a b : Expr} (g1' : Gen g (.expr a) c1 g1) (g2' : Gen g1 (.expr b) c2 g')
    (ih1 : FollowsE w N g (Src.eval w call · N false a) c1 g1) (ih2 : FollowsE w N g1 (Src.eval w call · N false b) c2 g') :
    FollowsE w N g (Src.eval w call · N false (.binary .coalesce a b))
      (.block [c1, .num .dup 0, .op .pushNull, .op .equal, .skipIf false (.block [.op .pop, c2])]) g' := by
  intro C K W ts R σ m h
  try dsimp only
  rw [Src.eval]
  refine Sim.guard fun hd => ?_
  have hv := g2'.still (h.good.gen g1').inv (show Src.declares b = false by simpa using hd)
  refine Sim.sub (ih1 (h.left g1' g2' (by hasfn))) fun v W1 σ1 m1 h1 h2 h3 h4 => ?_
  refine Sim.step (h4.dupOp (n := 0) rfl (by omega)) fun m2 h5 => ?_
  refine Sim.step (h5.pushes (.plain (v := .null) trivial) rfl) fun m3 h6 => ?_
  refine Sim.step h6.equalNull fun m4 h7 => ?_
  refine .last (.skipIf (h7.popKnown.mono ?_))
  rintro _ m4 ⟨rfl, h8⟩
  constructor
  · intro hn
    refine Sim.ite (fun h => by rw [h] at hn; cases hn) fun _ => ?_
    exact .nop ⟨rfl, W1, h1, h2, rfl, h3.congr hv, h8⟩
  · intro hn
    refine Sim.ite (fun _ => ?_) fun h => absurd h hn
    refine Sim.step h8.popOp fun m5 h9 => .last ?_
    exact Sim.back h1 h2 (ih2 (h.right' g1' rfl (by hasfn) h3 h9))

theorem case_is {e : Expr} {t : TypeAnn} {i : Instr} (hn : t.isNullable = false) (g1' : Gen g (.expr e) c g1)
    (hi : IdentGen g1 t.name i g') (ih : FollowsE w N g (Src.eval w call · N false e) c g1) :
    FollowsE w N g (Src.eval w call · N false (.is e t)) (.block [c, .instr i, .op .is]) g' := by
  intro C K W ts R σ m h
  try dsimp only
  simp only [Src.eval, hn, Bool.false_eq_true, if_false]
  have good1 := h.good.gen g1'
  refine Sim.sub (ih (h.before (c2 := .instr i) (.ident hi) (by hasfn) good1.inv)) fun v W1 σ1 m1 h1 h2 h3 h4 => ?_
  refine Sim.seqI (r := fun v => v) (ident_sim hi good1 h.dest h3 h4) fun k m2 h5 => .last ?_
  exact Sim.finish h1 h2 (h3.congr hi.view) (r := fun v => v) (Sim.op1 h5.isOp)

theorem repeatable_still {e : Expr} (h : Src.repeatable e = true) : Src.declares e = false := by
  cases e <;> first | rfl | cases h

theorem case_isNullable {e : Expr} {t : TypeAnn} {i : Instr} (hn : t.isNullable = true) (g1' : Gen g (.expr e) c1 g1)
    (g2' : Gen g1 (.expr e) c2 g2) (hi : IdentGen g2 t.name i g') (ih1 : FollowsE w N g (Src.eval w call · N false e) c1 g1)
    (ih2 : FollowsE w N g1 (Src.eval w call · N false e) c2 g2) :
    FollowsE w N g (Src.eval w call · N false (.is e t))
      (.block [c1, .op .pushNull, .op .equal, .num .dup 0,
        .skipIf true (.block [.op .pop, c2, .instr i, .op .is])]) g' := by
  intro C K W ts R σ m h
  try dsimp only
  simp only [Src.eval, hn, if_true]
  refine Sim.guard fun hr => ?_
  have good1 := h.good.gen g1'
  have good2 := good1.gen g2'
  have hv : g'.view = g1.view := hi.view.trans (g2'.still good1.inv (repeatable_still hr))
  have hh := h.before (c1 := .block [c1, c2]) (c2 := .instr i) (.ident hi)
    (fun b hb => by simp [Code.block, Code.HasFn] at hb ⊢; rcases hb with hb | hb <;> simp [hb]) good2.inv
  refine Sim.sub (ih1 (hh.left g1' g2' (by hasfn))) fun v W1 σ1 m1 h1 h2 h3 h4 => ?_
  refine Sim.step (h4.pushes (.plain (v := .null) trivial) rfl) fun m2 h5 => ?_
  refine Sim.step h5.equalNull fun m3 h6 => ?_
  refine Sim.step (h6.dupOp (n := 0) rfl (by omega)) fun m4 h7 => ?_
  refine .last (.skipIf (h7.popKnown.mono ?_))
  rintro _ m5 ⟨rfl, h8⟩
  constructor
  · intro hn
    refine Sim.ite (fun _ => ?_) fun h => by rw [h] at hn; cases hn
    rw [hn] at h8
    exact .nop ⟨rfl, W1, h1, h2, rfl, h3.congr hv, h8⟩
  · intro hn
    refine Sim.ite (fun h => absurd h hn) fun _ => ?_
    refine Sim.step h8.popOp fun m6 h9 => ?_
    refine Sim.sub (Sim.back h1 h2 (ih2 (hh.right' g1' rfl (by hasfn) h3 h9))) fun u W2 σ2 m7 k1 k2 k3 k4 => ?_
    refine Sim.seqI (r := fun v => v) (ident_sim hi good2 h.dest k3 k4) fun k m2 h5 => .last ?_
    exact Sim.finish k1 k2 (k3.congr hi.view) (r := fun v => v) (Sim.op1 h5.isOp)

theorem case_ifExpr {a b : Expr} {e : Option Expr} (g1' : Gen g (.expr a) c1 g1) (g2' : Gen g1 (.expr b) c2 g2)
    (g3' : Gen g2 (.els e) c3 g') (ih1 : FollowsE w N g (Src.eval w call · N false a) c1 g1)
    (ih2 : FollowsE w N g1 (Src.eval w call · N false b) c2 g2) (ih3 : FollowsE w N g2 (Src.evalOpt w call · N e) c3 g') :
    FollowsE w N g (Src.eval w call · N false (.ifExpr a b e)) (.seq c1 (.branch c2 c3)) g' := by
  intro C K W ts R σ m h
  try dsimp only
  rw [Src.eval]
  refine Sim.guard fun hd => ?_
  simp only [Bool.and_eq_true, Bool.not_eq_true'] at hd
  have inv1 := (h.good.gen g1').inv
  have inv2 := ((h.good.gen g1').gen g2').inv
  have hv2 := g2'.still inv1 hd.1
  have hv3 := g3'.still inv2 hd.2
  have hh := h.before g3' (fun _ h => h) inv2
  refine Sim.sub (ih1 (hh.left g1' g2' (by hasfn))) fun v W1 σ1 m1 h1 h2 h3 h4 => ?_
  refine Sim.branch h4.popTruth ?_ ?_
  · rintro x σ2 m2 ⟨rfl, rfl, h5⟩
    exact Sim.back h1 h2 (Sim.env hv3 (ih2 (hh.right' g1' rfl (by hasfn) h3 h5)))
  · rintro x σ2 m2 ⟨rfl, rfl, h5⟩
    exact Sim.back h1 h2 (ih3 ((h.right' g1' rfl (c2 := .seq c1 (.branch c2 c3)) (fun _ h => h) h3 h5).right' g2' rfl (by hasfn)
      (h3.congr hv2) h5))

/-! ## Jumps -/

theorem case_break : FollowsE w N g (Src.eval w call · N false .break_) .brk g := by
  intro C K W ts R σ m h
  try dsimp only
  rw [Src.eval]
  refine .inr fun _ => ⟨m, runs_brk.2 ⟨rfl, rfl⟩, W, .refl _ _, Nat.le_refl _, rfl, h.st.weaken fun _ _ h => .inl h⟩

theorem case_continue : FollowsE w N g (Src.eval w call · N false .continue_) .cont g := by
  intro C K W ts R σ m h
  try dsimp only
  rw [Src.eval]
  refine .inr fun _ => ⟨m, runs_cont.2 ⟨rfl, rfl⟩, W, .refl _ _, Nat.le_refl _, rfl, h.st.weaken fun _ _ h => .inl h⟩

/-- The end of a `return`. -/
theorem return_sim {v : Value} {cr : Code} {t : Option TypeAnn} (hr : ReturnGen g cr g') (good : Good C g) (hd : Dest C K g')
    (hm : Matches g W.seg) (hst : St C K W (v :: ts) σ m) (ht : C.role = .plain t ∨ C.role = .constructor ∧ t = none) :
    Sim N True (exec w C.f C.ups cr) m (Src.checkResult w t v (W.seg ++ C.out) σ)
      (fun _ σ' s m' => s = .stop ∧ σ' = σ ∧ St C K W (v :: ts) σ m') NoJump := by
  obtain ⟨k, h1, h2⟩ := good.kind
  have role : t = k.returnType := by
    rw [← h2] at ht
    cases k with
    | constructor =>
      rcases ht with ht | ht
      · cases ht
      · exact ht.2
    | function | method | module | script => rcases ht with ht | ht <;> cases ht <;> first | rfl | contradiction
  cases hr with
  | plain hk h =>
    cases hk.symm.trans h1
    rw [role, h]
    exact .instr (.ok (hst.returnOp.mono fun _ _ h => ⟨h.1, rfl, h.2⟩))
  | typed hk h hi =>
    cases hk.symm.trans h1
    rw [role, h]
    refine Sim.seqI (r := fun v => v) (ident_sim hi good hd hm hst) fun c m1 h3 => ?_
    exact .instr (h3.checkResultOp _)

theorem readVar_cases (ρ : SEnv) (x : String) (σ : State) :
    (∃ v, Src.readVar ρ x σ = (.ok v, σ)) ∨ (∃ e, Src.readVar ρ x σ = (.err e, σ)) ∨ Src.readVar ρ x σ = (.stuck, σ) := by
  unfold Src.readVar
  cases ρ.lookup x with
  | some l =>
    dsimp only
    unfold Src.readLoc
    split
    · exact .inl ⟨_, rfl⟩
    · exact .inr (.inr rfl)
  | none =>
    dsimp only
    unfold Src.globalVar
    split <;> simp

/-- A check ends with a value or an error. -/
theorem checkResult_cases (t : Option TypeAnn) (v : Value) (ρ : SEnv) (σ : State) :
    Src.checkResult w t v ρ σ = (.ok (), σ) ∨ (∃ e, Src.checkResult w t v ρ σ = (.err e, σ)) ∨
      Src.checkResult w t v ρ σ = (.stuck, σ) := by
  cases t with
  | none => exact .inl rfl
  | some t =>
    show S.bind _ _ σ = _ ∨ (∃ e, S.bind _ _ σ = _) ∨ S.bind _ _ σ = _
    unfold S.bind
    rcases readVar_cases ρ t.name σ with ⟨c, h⟩ | ⟨e, h⟩ | h
    · rw [h]
      simp only
      by_cases hc : ∃ k, c = .cls k
      · obtain ⟨k, rfl⟩ := hc
        show Src.checkType w t.isNullable k v σ = _ ∨ (∃ e, Src.checkType w t.isNullable k v σ = _) ∨ Src.checkType w t.isNullable k v σ = _
        unfold Src.checkType
        split
        · split <;> simp
        · split <;> simp
      · have e2 : Src.classRef c = S.err .invalidClass := by
          cases c <;> first | rfl | exact absurd ⟨_, rfl⟩ hc
        refine .inr (.inl ⟨.invalidClass, ?_⟩)
        show S.bind (Src.classRef c) _ σ = _
        rw [e2]; rfl
    · rw [h]; exact .inr (.inl ⟨e, rfl⟩)
    · rw [h]; exact .inr (.inr rfl)

/-- The values that are pending are dropped, if `return` is followed at all. -/
theorem sim_return {v : Value} {cr d : Code} {t : Option TypeAnn} {k : Nat} (hr : ReturnGen g1 cr g') (good : Good C g1)
    (hd : Dest C K g') (hm : Matches g1 W1.seg) (hle : W.Le n W1) (hn : n ≤ σ1.store.length)
    (hst : St C K W1 (v :: ts) σ1 m1) (ht : C.role = .plain t ∨ C.role = .constructor ∧ t = none) (hk : R → k = 0)
    (hcr : d = cr ∨ d = .seq cr .nop) :
    Sim N R (exec w C.f C.ups (.seq (dropCode k) d)) m1
      ((S.returned (Src.checkResult w t v (W1.seg ++ C.out)) >>= fun _ => S.jump (.ret (W1.seg ++ C.out) v)) σ1)
      (fun (_ : Value × SEnv) _ _ _ => False) (Jmp C K W ts n) := by
  by_cases hR : R
  · rw [hk hR]
    have key : DoesX w C.f C.ups .nop m1 fun m => m = m1 := .nop rfl
    refine Sim.steps key fun m2 hm2 => ?_
    subst hm2
    have main : Sim N R (exec w C.f C.ups cr) m2
        ((S.returned (Src.checkResult w t v (W1.seg ++ C.out)) >>= fun _ => S.jump (.ret (W1.seg ++ C.out) v)) σ1)
        (fun (_ : Value × SEnv) _ _ _ => False) (Jmp C K W ts n) := by
      refine Sim.returned ((return_sim hr good hd hm hst ht).post ?_) fun _ _ _ => trivial
      rintro _ _ _ m3 ⟨hs, rfl, h3⟩
      exact ⟨hs, W1, hle, hn, rfl, h3.weaken fun _ _ h => .inl h⟩
    rcases hcr with rfl | rfl
    · exact main
    · exact .left main
  · show Sim N R _ m1 (S.bind (S.returned _) _ σ1) _ _
    unfold S.bind S.returned
    rcases checkResult_cases (w := w) t v (W1.seg ++ C.out) σ1 with h | ⟨e, h⟩ | h
    · rw [h]; exact .inr fun h => absurd h hR
    · rw [h]; exact .inr fun h => absurd h hR
    · rw [h]; exact .stuck

theorem case_returnValue {e : Expr} {cr : Code} (g1' : Gen g (.expr e) c g1) (hr : ReturnGen g1 cr g')
    (ih : FollowsE w N g (Src.eval w call · N false e) c g1) :
    FollowsE w N g (Src.eval w call · N false (.return_ (some e))) (.block [c, dropCode g1.temps, cr]) g' := by
  intro C K W ts R σ m h
  try dsimp only
  have good1 := h.good.gen g1'
  have hd1 : Dest C K g1 := h.dest.back (hr.rel stepRel) good1.inv fun s hs => h.dest.flags s ((hr.srel widensRel.toScopeRel good1.inv).2.2 s hs)
  cases hrole : C.role with
  | constructor => simp only [Src.eval]; exact .stuck
  | plain t =>
    simp only [Src.eval]
    rw [← hrole]
    refine Sim.sub (ih ⟨h.good, hd1, fun b hb => h.fit b (by simp [Code.block, Code.HasFn, hb]), h.seg, h.st, h.ret⟩)
      fun v W1 σ1 m1 h1 h2 h3 h4 => ?_
    exact (sim_return hr good1 h.dest h3 h1 h2 h4 (.inl hrole) (fun r => by rw [g1'.temps rfl]; exact (h.ret r).2) (.inr rfl)).post
      fun _ _ _ _ h => h.elim

theorem case_returnUnit {k : CompilerKind} {cr : Code} (hk : g.kind = some k) (hf : ∃ r, k = .function r ∨ k = .method r)
    (hr : ReturnGen g cr g') :
    FollowsE w N g (Src.eval w call · N false (.return_ none)) (.block [.op .pushUnit, dropCode g.temps, cr]) g' := by
  intro C K W ts R σ m h
  try dsimp only
  obtain ⟨k', h1, h2⟩ := h.good.kind
  cases hk.symm.trans h1
  obtain ⟨t, hrole⟩ : ∃ t, C.role = .plain t := by
    rw [← h2]
    obtain ⟨r, rfl | rfl⟩ := hf <;> exact ⟨_, rfl⟩
  rw [hrole]
  simp only [Src.eval]
  refine Sim.step (h.st.pushes (.plain (v := .unit) trivial) rfl) fun m1 h1 => ?_
  exact (sim_return hr h.good h.dest h.seg (.refl _ _) (Nat.le_refl _) h1 (.inl hrole) (fun r => (h.ret r).2) (.inr rfl)).post
    fun _ _ _ _ h => h.elim

theorem case_returnSelf {v : ScopeVar} {cr : Code} (hk : g.kind = some .constructor) (hv : g.lookup nameSelf = some v)
    (hr : ReturnGen g cr g') :
    FollowsE w N g (Src.eval w call · N false (.return_ none)) (.block [.num .loadLocal v.slot, dropCode g.temps, cr]) g' := by
  intro C K W ts R σ m h
  try dsimp only
  obtain ⟨k', h1, h2⟩ := h.good.kind
  cases hk.symm.trans h1
  have hrole : C.role = .constructor := h2.symm
  have hd0 : Dest C K g := h.dest.back (hr.rel stepRel) h.good.inv fun s hs => h.dest.flags s ((hr.srel widensRel.toScopeRel h.good.inv).2.2 s hs)
  rw [hrole]
  simp only [Src.eval]
  refine Sim.seqI (r := fun v => v) (local_sim hv h.good hd0 h.seg h.st) fun u m1 h3 => ?_
  exact (sim_return (t := none) hr h.good h.dest h.seg (.refl _ _) (Nat.le_refl _) h3 (.inr ⟨hrole, rfl⟩) (fun r => (h.ret r).2)
    (.inr rfl)).post fun _ _ _ _ h => h.elim

/-! ## Declarations -/

/-- A new variable has the next slot. -/
theorem addLocal_slot {x : String} {st : VarState} {slot : Nat} (inv : StackInv g) (hl : g.addLocal x st = some (slot, g'))
    (hm : Matches g W.seg) (hd : Dest C K g') :
    slot = W.seg.length ∧ C.f.start + slot < C.f.stop ∧ slot < 256 ∧ (∀ l, Matches g' ((x, l) :: W.seg)) ∧
      Dest C K g := by
  obtain ⟨h1, h2⟩ := addLocal_vars inv hl
  have h3 := hm.length
  have hs := stepRel.addLocal hl
  have inv' := (hs.2.1 inv).1
  have h4 := Env.vars_le inv'
  rw [h2, List.length_cons] at h4
  have h5 := hd.slots
  have h6 := hd.room
  refine ⟨by omega, by omega, by omega, fun l => ?_, hd.back hs inv fun s hs => hd.flags s ((addLocal_flagged hl s).2 hs)⟩
  unfold Matches at hm ⊢
  rw [h2, List.map_cons, List.map_cons, hm]

/-- The check of a variable with a declared type. -/
theorem type_sim {slot l : Nat} {t : Option TypeAnn} {ct : Code} {J : Jump → State → VM → Prop} (ht : TypeGen g slot t ct g')
    (good : Good C g) (hd : Dest C K g') (hm : Matches g W.seg) (hs : slotLoc W.seg slot = some l) (hb : slot < 256)
    (hst : St C K W ts σ m) :
    Sim N R (exec w C.f C.ups ct) m (Src.checkVar w t l (W.seg ++ C.out) σ) (Norm fun _ σ' m' => σ' = σ ∧ St C K W ts σ m') J := by
  cases ht with
  | none => exact .nop ⟨rfl, rfl, hst⟩
  | some hi =>
    refine Sim.seqI (r := fun v => v) (ident_sim hi good hd hm hst) fun c m1 h1 => ?_
    exact .instr (h1.checkVarOp _ hs hb)

theorem TypeGen.view {slot : Nat} {t : Option TypeAnn} {ct : Code} (ht : TypeGen g slot t ct g') : g'.view = g.view := by
  cases ht with
  | none => rfl
  | some hi => exact hi.view

theorem TypeGen.dest {slot : Nat} {t : Option TypeAnn} {ct : Code} (ht : TypeGen g slot t ct g') (inv : StackInv g)
    (hd : Dest C K g') : Dest C K g :=
  hd.back (ht.rel stepRel) inv fun s hs => hd.flags s ((ht.srel widensRel.toScopeRel inv).2.2 s hs)

theorem case_varDecl {x : String} {mu : Bool} {e : Expr} {t : Option TypeAnn} {slot : Nat} {ct : Code} (g1' : Gen g (.expr e) c g1)
    (hl : g1.addLocal x (.initialized mu) = some (slot, g2)) (ht : TypeGen g2 slot t ct g')
    (ih : FollowsE w N g (Src.eval w call · N false e) c g1) :
    FollowsE w N g (Src.eval w call · N false (.varDecl (.singular x) mu e t)) (.block [c, .num .storeLocal slot, ct]) g' := by
  intro C K W ts R σ m h
  try dsimp only
  simp only [Src.eval]
  have good1 := h.good.gen g1'
  have good2 := good1.step (stepRel.addLocal hl)
  have hd2 := TypeGen.dest ht good2.inv h.dest
  have hm0 : ∃ seg : SEnv, Matches g1 seg := by
    refine ⟨g1.vars.map fun x => (x.1, 0), ?_⟩
    unfold Matches
    rw [List.map_map]; rfl
  obtain ⟨seg0, hm0⟩ := hm0
  have hd1 := (addLocal_slot (W := { W with seg := seg0 }) good1.inv hl hm0 hd2).2.2.2.2
  refine Sim.sub (ih ⟨h.good, hd1, fun b hb => h.fit b (by simp [Code.block, Code.HasFn, hb]), h.seg, h.st, h.ret⟩)
    fun v W1 σ1 m1 h1 h2 h3 h4 => ?_
  obtain ⟨rfl, k2, k3, k4, -⟩ := addLocal_slot good1.inv hl h3 hd2
  refine Sim.step (h4.storeLocalOp (Nat.le_refl _) k2 k3) fun m2 h5 => ?_
  have h6 := h5.1.alloc (o := some v) x k2 (by rintro _ ⟨⟩; exact h5.2)
  refine Sim.last ?_
  show Sim N R _ m2 ((Src.checkVar w t σ1.store.length ((x, σ1.store.length) :: (W1.seg ++ C.out)) >>=
    fun _ => pure (v, (x, σ1.store.length) :: (W1.seg ++ C.out))) { σ1 with store := σ1.store ++ [some v] }) _ _
  refine Sim.thenE (type_sim ht good2 h.dest (k4 _) (slotLoc_cons x _ _) k3 h6) ?_
  rintro _ _ s m3 ⟨rfl, rfl, h7⟩
  refine ⟨_, _, rfl, rfl, _, h1.trans h2 (W1.le_alloc x _ _ (Nat.le_refl _)), ?_, rfl, (k4 _).congr (TypeGen.view ht), h7⟩
  simp only [List.length_append]
  omega

/-- Changes of the static environment that are not about variables. -/
structure Keeps (g g' : Env) : Prop where
  step : Step g g'
  view : g'.view = g.view
  flags : ∀ s, g.Flagged s → g'.Flagged s

theorem Keeps.depth {d : Nat} (h : g.setCallDepth d = some g') : Keeps g g' :=
  ⟨stepRel.setCallDepth h, setCallDepth_view h, fun s => (setCallDepth_flagged h s).2⟩

theorem Keeps.pending (g : Env) (k : Nat) : Keeps g (g.setTemps k) :=
  ⟨stepRel.setTemps g k, setTemps_view g k, fun s => (setTemps_flagged g k s).2⟩

theorem Keeps.trans (h1 : Keeps g g1) (h2 : Keeps g1 g2) : Keeps g g2 :=
  ⟨stepRel.trans h1.step h2.step, h2.view.trans h1.view, fun s h => h2.flags s (h1.flags s h)⟩

theorem Keeps.dest (h : Keeps g g') (inv : StackInv g) (hd : Dest C K g') : Dest C K g :=
  hd.back h.step inv fun s hs => hd.flags s (h.flags s hs)

theorem addLocals_cons {x : String} {xs : List String} {ls : List (String × Nat)} (h : g.addLocals (x :: xs) = some (ls, g')) :
    ∃ slot g1 rest, g.addLocal x (.initialized false) = some (slot, g1) ∧ g1.addLocals xs = some (rest, g') ∧
      ls = (x, slot) :: rest := by
  unfold Env.addLocals at h
  split at h
  · cases h
  · rename_i slot g1 hl
    split at h
    · cases h
    · rename_i rest _ hr
      cases h
      exact ⟨slot, g1, rest, hl, hr, rfl⟩

theorem addLocals_dest {xs : List String} {ls : List (String × Nat)} (hl : g.addLocals xs = some (ls, g')) (inv : StackInv g)
    (hd : Dest C K g') : Dest C K g :=
  hd.back (stepRel.addLocals hl) inv fun s hs => hd.flags s ((widensRel.addLocals hl inv).2.2 s hs)

theorem bindFields_sim {xs : List String} {ls : List (String × Nat)} {v : Value} (hl : g.addLocals xs = some (ls, g'))
    (inv : StackInv g) (hd : Dest C K g') (hm : Matches g W.seg) (hst : St C K W (v :: ts) σ m) (J : Jump → State → VM → Prop) :
    Sim N R (exec w C.f C.ups (fieldLocalsCode ls)) m (Src.bindFields w v xs (W.seg ++ C.out) σ)
      (Norm fun ρ => Post C K W g' ts σ.store.length (v, ρ)) J := by
  induction xs generalizing ls g W σ m with
  | nil =>
    cases hl
    exact .nop ⟨rfl, W, .refl _ _, Nat.le_refl _, rfl, hm, hst⟩
  | cons x xs ih =>
    obtain ⟨slot, g1, rest, h1, h2, rfl⟩ := addLocals_cons hl
    have inv1 := ((stepRel.addLocal h1).2.1 inv).1
    obtain ⟨rfl, k2, k3, k4, -⟩ := addLocal_slot inv h1 hm (addLocals_dest h2 inv1 hd)
    rw [Src.bindFields]
    refine Sim.step (hst.dupOp (n := 0) rfl (by omega)) fun m1 h3 => ?_
    refine Sim.seqI (r := fun v => v) (h3.loadFieldOp x) fun u m2 h4 => ?_
    refine Sim.step (h4.storeLocalOp (Nat.le_refl _) k2 k3) fun m3 h5 => ?_
    have h6 := h5.1.alloc (o := some u) x k2 (by rintro _ ⟨⟩; exact h5.2)
    refine Sim.step h6.popOp fun m4 h7 => .last ?_
    refine (ih h2 inv1 (k4 _) h7).post ?_
    rintro ρ σ2 s m5 ⟨hs, h8⟩
    refine ⟨hs, h8.back (W.le_alloc x _ _ (Nat.le_refl _)) ?_⟩
    simp only [List.length_append]
    omega

theorem case_varDecls {xs : List String} {mu : Bool} {e : Expr} {t : Option TypeAnn} {ls : List (String × Nat)}
    (g1' : Gen g (.expr e) c g1) (hl : g1.addLocals xs = some (ls, g')) (ih : FollowsE w N g (Src.eval w call · N false e) c g1) :
    FollowsE w N g (Src.eval w call · N false (.varDecl (.destructured xs) mu e t)) (.seq c (fieldLocalsCode ls)) g' := by
  intro C K W ts R σ m h
  try dsimp only
  simp only [Src.eval]
  have inv1 := (h.good.gen g1').inv
  refine Sim.sub (ih ⟨h.good, addLocals_dest hl inv1 h.dest, fun b hb => h.fit b (by simp [Code.HasFn, hb]), h.seg, h.st, h.ret⟩)
    fun v W1 σ1 m1 h1 h2 h3 h4 => ?_
  refine (bindFields_sim hl inv1 h.dest h3 h4 _).thenE ?_
  rintro ρ σ2 s m2 ⟨hs, h5⟩
  exact ⟨_, _, rfl, hs, h5.back h1 h2⟩

theorem case_fnDecl {name : String} {args : List FnArg} {ret : Option TypeAnn} {body : Expr} {fn : Ctx} {bc : Bytecode}
    {id : Nat} {v : ScopeVar}
    (hb : Gen (g.pushFn (.function ret)) (.fnBody .function args (bodyExprs body) (bodyTrailing body)) c (fn :: g'))
    (hc : FnCode fn c bc) (hv : g'.lookup name = some v) {st : VarState} :
    FollowsE w N g (Src.eval w call · N false (.fnDecl name args ret body))
      (.seq (.instr (fnInstr bc name id fn.upvalues)) (.num .storeLocal v.slot)) (g'.setState name st) := by
  intro C K W ts R σ m h
  try dsimp only
  have hstep : Step g g' := stepRel.fn (hb.rel stepRel)
  have inv' := (h.good.step hstep).inv
  have hm' := h.seg.congr hb.outer.view
  have hd' : Dest C K g' := h.dest.back (stepRel.setState g' name st) inv' fun s hs => h.dest.flags s (setState_flagged hs)
  obtain ⟨l, h1, h2⟩ := hm'.lookup_some inv' hv
  have h3 : (W.seg ++ C.out).lookup name = some l := by rw [List.lookup_append, h1]; rfl
  have h256 : v.slot < 256 := by
    have k1 := slotLoc_lt h2
    have k2 := hd'.slots
    have k3 := Env.vars_le inv'
    have k4 := hm'.length
    omega
  simp only [Src.eval, h3]
  refine Sim.subV (ts := ts) (W := W) (K := K) (C := C) (n := σ.store.length) (r := fun v => v)
    (.instr (h.st.newFnOp (k := .function) h.good hb hc (h.fit bc ?_) hd' h.seg)) ?_
  · refine .inl ?_
    unfold fnInstr
    split <;> rfl
  · intro u W1 σ1 m1 k1 k2 k3 k4
    rw [← k2] at h2 ⊢
    refine Sim.finish k1 k3 (r := fun _ => u) (by rw [k2]; exact hm'.congr (setState_view _ _ _)) ?_
    exact Sim.op2 (k4.storeVarOp h2 h256)

/-! ## Statements -/

theorem case_els {t : Expr} (ih : FollowsE w N g (Src.eval w call · N false t) c g') :
    FollowsE w N g (Src.evalOpt w call · N (some t)) c g' := by
  intro C K W ts R σ m h
  try dsimp only
  rw [Src.evalOpt]
  exact ih h

theorem case_elsNone : FollowsE w N g (Src.evalOpt w call · N none) (.op .pushUnit) g :=
  follows_push (Src.evalOpt w call · N none) (fun _ ρ => by rw [Src.evalOpt]) (v := .unit) trivial rfl fun _ _ _ _ => ⟨_, rfl⟩

/-- Statements and a result. -/
def evalSeq (w : World) (call : Src.Calls) (r : Src.Role) (n : Nat) (es : List Expr) (t : Option Expr) (ρ : SEnv) :
    S (Value × SEnv) := do
  let ρ ← Src.evalStmts w call r n es ρ
  Src.evalOpt w call r n t ρ

theorem case_seqNil {t : Option Expr} (ih : FollowsE w N g (Src.evalOpt w call · N t) c g') :
    FollowsE w N g (evalSeq w call · N [] t) c g' := by
  intro C K W ts R σ m h
  try dsimp only
  unfold evalSeq
  rw [Src.evalStmts]
  exact ih h

theorem case_seqCons {e : Expr} {es : List Expr} {t : Option Expr} (g1' : Gen g (.expr e) c1 g1) (g2' : Gen g1 (.seq es t) c2 g')
    (ih1 : FollowsE w N g (Src.eval w call · N false e) c1 g1) (ih2 : FollowsE w N g1 (evalSeq w call · N es t) c2 g') :
    FollowsE w N g (evalSeq w call · N (e :: es) t) (.block [c1, .op .pop, c2]) g' := by
  intro C K W ts R σ m h
  try dsimp only
  have key : evalSeq w call C.role N (e :: es) t (W.seg ++ C.out) σ =
      (Src.eval w call C.role N false e (W.seg ++ C.out) >>= fun r => evalSeq w call C.role N es t r.2) σ := by
    unfold evalSeq
    rw [Src.evalStmts]
    show S.bind (S.bind _ _) _ σ = S.bind _ _ σ
    unfold S.bind
    cases Src.eval w call C.role N false e (W.seg ++ C.out) σ with
    | mk o σ1 => cases o <;> rfl
  rw [key]
  refine Sim.sub (ih1 (h.left g1' g2' (by hasfn))) fun v W1 σ1 m1 h1 h2 h3 h4 => ?_
  refine Sim.step h4.popOp fun m2 h5 => .last ?_
  exact Sim.back h1 h2 (ih2 (h.right' g1' rfl (by hasfn) h3 h5))

/-! ## Lists of operands -/

/-- The code of operands follows the evaluator. -/
def FollowsL (w : World) (N : Nat) (g : Env) (e : Src.Role → SEnv → S (List Value × SEnv)) (k : Nat) (c : Code) (g' : Env) : Prop :=
  ∀ {C : Cx} {K : Nat → Prop} {W : Wd} {ts : List Value} {R : Prop} {σ : State} {m : VM} {J : Jump → State → VM → Prop},
    Here C K g g' c W ts False σ m →
    Sim N R (exec w C.f C.ups c) m (e C.role (W.seg ++ C.out) σ) (Norm fun r σ' m' => r.1.length = k ∧
      ∃ W', W.Le σ.store.length W' ∧ σ.store.length ≤ σ'.store.length ∧ r.2 = W'.seg ++ C.out ∧ Matches g' W'.seg ∧
        St C K W' (r.1.reverse ++ ts) σ' m') J

theorem case_itemsNil : FollowsL w N g (Src.evalAll w call · N []) 0 .nop g := by
  intro C K W ts R σ m J h
  try dsimp only
  rw [Src.evalAll]
  exact .nop ⟨rfl, rfl, W, .refl _ _, Nat.le_refl _, rfl, h.seg, h.st⟩

/-- One operand, then the others. -/
theorem FollowsL.cons {e : Expr} {es : List Expr} (k0 : Keeps g g1) (g1' : Gen g1 (.expr e) c1 g2) (k2 : Keeps g2 g3)
    (hn : Step g3 g') (hfl : StackInv g3 → ∀ s, g3.Flagged s → g'.Flagged s)
    (ih1 : FollowsE w N g1 (Src.eval w call · N false e) c1 g2) (ih2 : FollowsL w N g3 (Src.evalAll w call · N es) es.length c2 g') :
    FollowsL w N g (Src.evalAll w call · N (e :: es)) (es.length + 1) (.seq c1 c2) g' := by
  intro C K W ts R σ m J h
  try dsimp only
  rw [Src.evalAll]
  have good1 := h.good.step k0.step
  have good2 := good1.gen g1'
  have good3 := good2.step k2.step
  have hd3 : Dest C K g3 := h.dest.back hn good3.inv fun s hs => h.dest.flags s (hfl good3.inv s hs)
  refine Sim.subOp (R' := False) (ih1 ⟨good1, k2.dest good2.inv hd3, fun b hb => h.fit b (.inl hb), h.seg.congr k0.view, h.st, False.elim⟩)
    fun v W1 σ1 m1 h1 h2 h3 h4 => ?_
  refine (ih2 ⟨good3, h.dest, fun b hb => h.fit b (.inr hb), h3.congr k2.view, h4, False.elim⟩).thenE ?_
  rintro ⟨vs, ρ⟩ σ2 s m2 ⟨hs, h5, W2, h6, h7, h8, h9, h10⟩
  refine ⟨_, _, rfl, hs, by simp at h5 ⊢; exact h5, W2, h1.trans h2 h6, Nat.le_trans h2 h7, h8, h9, ?_⟩
  rw [List.reverse_cons, List.append_assoc]
  exact h10

theorem Keeps.refl (g : Env) : Keeps g g := ⟨stepRel.refl g, rfl, fun _ h => h⟩

theorem case_itemsCons {e : Expr} {es : List Expr} (g1' : Gen g (.expr e) c1 g1) (g2' : Gen g1 (.items es) c2 g')
    (ih1 : FollowsE w N g (Src.eval w call · N false e) c1 g1) (ih2 : FollowsL w N g1 (Src.evalAll w call · N es) es.length c2 g') :
    FollowsL w N g (Src.evalAll w call · N (e :: es)) (es.length + 1) (.seq c1 c2) g' :=
  FollowsL.cons (.refl _) g1' (.refl _) (g2'.rel stepRel) (fun inv => (g2'.widens inv).2.2) ih1 ih2

theorem case_argsCons {e : Expr} {es : List Expr} {d : Nat} (h0 : g.setCallDepth 0 = some g1)
    (g1' : Gen (g1.setTemps (g1.temps + 1)) (.expr e) c1 g2) (h2 : g2.setCallDepth d = some g3) (g3' : Gen g3 (.args es) c2 g')
    (ih1 : FollowsE w N (g1.setTemps (g1.temps + 1)) (Src.eval w call · N false e) c1 g2)
    (ih2 : FollowsL w N g3 (Src.evalAll w call · N es) es.length c2 g') :
    FollowsL w N g (Src.evalAll w call · N (e :: es)) (es.length + 1) (.seq c1 c2) g' :=
  FollowsL.cons ((Keeps.depth h0).trans (.pending _ _)) g1' (.depth h2) (g3'.rel stepRel) (fun inv => (g3'.widens inv).2.2) ih1 ih2

theorem case_list {es : List Expr} (ih : FollowsL w N g (Src.evalAll w call · N es) es.length c g') :
    FollowsE w N g (Src.eval w call · N false (.list es)) (.seq c (.num .createArray es.length)) g' := by
  intro C K W ts R σ m h
  try dsimp only
  rw [Src.eval]
  refine Sim.guard fun hl => ?_
  have hl : es.length ≤ 255 := by simpa using hl
  refine Sim.seq (ih (h.noRet.only (by hasfn))) ?_
  rintro ⟨vs, ρ⟩ σ1 m1 ⟨h1, W1, h2, h3, h4, h5, h6⟩
  cases h4
  simp only at h1
  rw [← h1]
  exact Sim.finish h2 h3 h5 (r := fun v => v) (Sim.op2 (h6.createArrayOp (by show vs.length < 256; omega)))

/-! ## Objects -/

/-- The code of the fields of an object follows the evaluator. -/
def FollowsF (w : World) (N : Nat) (g : Env) (e : Src.Role → Value → SEnv → S SEnv) (c : Code) (g' : Env) : Prop :=
  ∀ {C : Cx} {K : Nat → Prop} {W : Wd} {ts : List Value} {R : Prop} {σ : State} {m : VM} {J : Jump → State → VM → Prop} {o : Value},
    Here C K g g' c W (o :: ts) False σ m →
    Sim N R (exec w C.f C.ups c) m (e C.role o (W.seg ++ C.out) σ) (Norm fun ρ => Post C K W g' ts σ.store.length (o, ρ)) J

theorem case_fieldsNil : FollowsF w N g (fun r o => Src.evalFields w call r N o []) .nop g := by
  intro C K W ts R σ m J o h
  try dsimp only
  simp only [Src.evalFields]
  exact .nop ⟨rfl, W, .refl _ _, Nat.le_refl _, rfl, h.seg, h.st⟩

theorem case_fieldsCons {f : String} {e : Expr} {fs : List (String × Expr)} (g1' : Gen g (.expr e) c1 g1)
    (g2' : Gen g1 (.fields fs) c2 g') (ih1 : FollowsE w N g (Src.eval w call · N false e) c1 g1)
    (ih2 : FollowsF w N g1 (fun r o => Src.evalFields w call r N o fs) c2 g') :
    FollowsF w N g (fun r o => Src.evalFields w call r N o ((f, e) :: fs))
      (.block [.num .dup 0, c1, .sym .storeField f, .op .pop, c2]) g' := by
  intro C K W ts R σ m J o h
  try dsimp only
  simp only [Src.evalFields]
  refine Sim.step (h.st.dupOp (n := 0) rfl (by omega)) fun m1 h1 => ?_
  refine Sim.subOp (ih1 ((h.left g1' g2' (by hasfn)).with (fun _ h => h) h1)) fun v W1 σ1 m1 h1 h2 h3 h4 => ?_
  refine Sim.seq (.instr (h4.storeFieldOp f)) ?_
  rintro ⟨⟩ σ2 m2 ⟨h5, h6⟩
  refine Sim.step h6.popOp fun m3 h7 => .last ?_
  refine (ih2 (h.right g1' (by hasfn) h3 h7)).post ?_
  rintro ρ σ3 s m4 ⟨hs, h8⟩
  exact ⟨hs, h8.back h1 (Nat.le_trans h2 h5)⟩

theorem case_object {fs : List (String × Expr)} (ih : FollowsF w N g (fun r o => Src.evalFields w call r N o fs) c g') :
    FollowsE w N g (Src.eval w call · N false (.object fs)) (.seq (.op .createObject) c) g' := by
  intro C K W ts R σ m h
  try dsimp only
  rw [Src.eval]
  refine Sim.seq (.instr h.st.createObjectOp) ?_
  rintro o σ1 m1 ⟨h1, h2⟩
  refine (ih (h.with (by hasfn) h2)).thenE ?_
  rintro ρ σ2 s m2 ⟨hs, h3⟩
  exact ⟨_, _, rfl, hs, h3.back (.refl _ _) h1⟩

/-! ## Chains -/

theorem guard_chainEnd (b i : Bool) (e : Expr) (ρ : SEnv) (x : S (Value × SEnv)) :
    S.guard b (Src.chainEnd i e ρ x) = Src.chainEnd i e ρ (S.guard b x) := by
  cases b with
  | true => rfl
  | false =>
    unfold Src.chainEnd
    split
    · rfl
    · split
      · rfl
      · cases Src.declares e <;> rfl

/-- The end of a chain. -/
theorem link_eval {e : Expr} (he : e.isLink = true) (r : Src.Role) (ρ : SEnv) :
    Src.eval w call r N false e ρ = Src.chainEnd false e ρ (Src.eval w call r N true e ρ) := by
  have h : ∀ (e : Expr) (ρ : SEnv) x, Src.chainEnd true e ρ x = x := fun _ _ _ => rfl
  cases e <;> first | (simp only [Src.eval, guard_chainEnd, h]; done) | cases he

theorem chain_here {e : Expr} {d d' : Nat} {R : Prop} (h0 : g.setCallDepth d = some g1) (g1' : Gen g1 (.link e) c g2)
    (h1 : g2.setCallDepth d' = some g') (h : Here C K g g' (if d' = 0 then .chain c else c) W ts R σ m) :
    Here C K g1 g2 c W ts R σ m := by
  have good1 := h.good.step (stepRel.setCallDepth h0)
  have good2 := good1.gen g1'
  exact ⟨good1, (Keeps.depth h1).dest good2.inv h.dest, fun b hb => h.fit b (by split <;> simp [Code.HasFn, hb]),
      h.seg.congr (setCallDepth_view h0), h.st,
      fun r => ⟨(h.ret r).1, by rw [temps_pending, setCallDepth_pending h0, ← temps_pending]; exact (h.ret r).2⟩⟩

/-- The first link of a chain, or a chain of its own. -/
theorem case_chain {e : Expr} {d d' : Nat} (he : e.isLink = true) (h0 : g.setCallDepth d = some g1) (g1' : Gen g1 (.link e) c g2)
    (h1 : g2.setCallDepth d' = some g') (hd : d' = 0 ∨ Src.closed e = true)
    (ih : FollowsE w N g1 (Src.eval w call · N true e) c g2) :
    FollowsE w N g (Src.eval w call · N false e) (if d' = 0 then .chain c else c) g' := by
  intro C K W ts R σ m h
  try dsimp only
  have key := Sim.env (setCallDepth_view h1) (ih (chain_here h0 g1' h1 h))
  rw [link_eval he]
  unfold Src.chainEnd
  simp only [Bool.false_eq_true, if_false]
  by_cases hc : Src.closed e = true
  · rw [if_pos hc]
    split
    · exact .chain key
    · exact .noExit key
  · rw [if_neg hc]
    have hd0 : d' = 0 := hd.resolve_right hc
    rw [if_pos hd0]
    refine Sim.guard fun hdecl => ?_
    refine Sim.close key ?_
    rintro ρ' σ' m' ⟨W', k1, k2, rfl, k4⟩ hl
    have hs : W'.seg = W.seg := k1.seg_eq (by simpa using hl)
    have good1 := h.good.step (stepRel.setCallDepth h0)
    have hv : g'.view = g.view := (setCallDepth_view h1).trans ((g1'.still good1.inv (show Src.declares e = false by simpa using hdecl)).trans (setCallDepth_view h0))
    refine ⟨W', k1, k2, by rw [hs], by rw [hs]; exact h.seg.congr hv, k4.weaken fun s hs' h => h.resolve_right ?_⟩
    rw [← hs]; omega

/-- A link of a longer chain. -/
theorem case_inner {e : Expr} {d d' : Nat} (h0 : g.setCallDepth d = some g1) (g1' : Gen g1 (.link e) c g2)
    (h1 : g2.setCallDepth d' = some g') (hd : d' ≠ 0)
    (ih : FollowsE w N g1 (Src.eval w call · N true e) c g2) :
    FollowsE w N g (Src.eval w call · N true e) (if d' = 0 then .chain c else c) g' := by
  intro C K W ts R σ m h
  try dsimp only
  have key := Sim.env (setCallDepth_view h1) (ih (chain_here h0 g1' h1 h))
  rw [if_neg hd]
  exact key

theorem case_field {e : Expr} {f : String} (ih : Src.spine e = true → FollowsE w N g (Src.eval w call · N true e) c g') :
    FollowsE w N g (Src.eval w call · N true (.field e f)) (.seq c (.sym .loadField f)) g' := by
  intro C K W ts R σ m h
  try dsimp only
  rw [Src.eval]
  refine Sim.guard fun hs => ?_
  refine Sim.sub (ih hs (h.only (by hasfn))) fun v W1 σ1 m1 h1 h2 h3 h4 => ?_
  exact Sim.finish h1 h2 h3 (r := fun v => v) (Sim.op1 (h4.loadFieldOp f))

theorem binDecide_notNull (w : World) (v : Value) : binDecide w .notEqual v .null = .value (.bool !v.isNull) := by
  cases v <;> rfl

theorem St.notEqualNull {v : Value} (h : St C K W (.null :: v :: ts) σ m) :
    Does (istep w 0 C.f C.ups (.op .notEqual)) m fun s m1 => s = .normal ∧ St C K W (.bool (!v.isNull) :: ts) σ m1 := by
  refine .istep ?_
  have key : Does (binaryOp w (callsAt w 0).callFn .notEqual) m fun _ m1 => St C K W (.bool (!v.isNull) :: ts) σ m1 := by
    refine h.pop.bind ?_
    rintro u m1 ⟨hu, h1⟩
    refine (h1.peek (i := 0) rfl).bind ?_
    rintro u' m1 ⟨hu', rfl⟩
    rw [← VRel.binDecide hu' hu, binDecide_notNull]
    exact h1.poke (.plain (v := .bool !v.isNull) trivial)
  exact key.bind fun _ _ h => .pure ⟨rfl, h⟩

theorem case_nullProp {e : Expr} (ih : Src.spine e = true → FollowsE w N g (Src.eval w call · N true e) c g') :
    FollowsE w N g (Src.eval w call · N true (.nullProp e))
      (.block [c, .num .dup 0, .op .pushNull, .op .notEqual, .exitIf false]) g' := by
  intro C K W ts R σ m h
  try dsimp only
  rw [Src.eval]
  refine Sim.guard fun hs => ?_
  refine Sim.sub (ih hs (h.only (by hasfn))) fun v W1 σ1 m1 h1 h2 h3 h4 => ?_
  refine Sim.step (h4.dupOp (n := 0) rfl (by omega)) fun m2 h5 => ?_
  refine Sim.step (h5.pushes (.plain (v := .null) trivial) rfl) fun m3 h6 => ?_
  refine Sim.step h6.notEqualNull fun m4 h7 => .last ?_
  have heq : (if v.isNull = true then S.jump (.exit (W1.seg ++ C.out)) else pure (v, W1.seg ++ C.out) : S (Value × SEnv)) =
      if (!v.isNull) = false then S.jump (.exit (W1.seg ++ C.out)) else pure (v, W1.seg ++ C.out) := by
    cases v.isNull <;> rfl
  show Sim N R _ m4 ((if v.isNull = true then S.jump (.exit (W1.seg ++ C.out)) else pure (v, W1.seg ++ C.out) : S (Value × SEnv)) σ1) _ _
  rw [heq]
  refine Sim.exitIf (h7.popKnown.mono ?_)
  rintro b m5 ⟨rfl, h8⟩
  refine ⟨rfl, fun hn => ?_, fun _ => ⟨rfl, W1, h1, h2, rfl, h3, h8⟩⟩
  have : v = .null := by
    cases v <;> first | rfl | cases hn
  subst this
  exact ⟨W1, h1, h2, rfl, h8.weaken fun _ _ h => .inl h⟩

theorem case_errProp {e : Expr} {cr : Code} (g1' : Gen g (.expr e) c g1) (hr : ReturnGen g1 cr g')
    (ih : Src.spine e = true → FollowsE w N g (Src.eval w call · N true e) c g1) :
    FollowsE w N g (Src.eval w call · N true (.errProp e))
      (.block [c, .num .dup 0, .sym .loadField "is_ok", .skipIf true (.seq (dropCode g1.temps) cr), .sym .loadField "result"]) g' := by
  intro C K W ts R σ m h
  try dsimp only
  rw [Src.eval]
  have good1 := h.good.gen g1'
  have hd1 : Dest C K g1 := h.dest.back (hr.rel stepRel) good1.inv fun s hs => h.dest.flags s ((hr.srel widensRel.toScopeRel good1.inv).2.2 s hs)
  refine Sim.guard fun hs => ?_
  refine Sim.sub (ih hs ⟨h.good, hd1, fun b hb => h.fit b (by simp [Code.block, Code.HasFn, hb]), h.seg, h.st, h.ret⟩)
    fun v W1 σ1 m1 h1 h2 h3 h4 => ?_
  refine Sim.step (h4.dupOp (n := 0) rfl (by omega)) fun m2 h5 => ?_
  refine Sim.seqI (r := fun v => v) (h5.loadFieldOp "is_ok") fun k m3 h6 => ?_
  refine Sim.skipElse h6.popTruth ?_ ?_
  · rintro x σ2 m4 ⟨rfl, rfl, h7⟩
    refine .last ?_
    exact Sim.finish h1 h2 (h3.congr hr.view) (r := fun v => v) (Sim.op1 (h7.loadFieldOp "result"))
  · rintro x σ2 m4 ⟨rfl, hx, h7⟩
    simp only [← hx, Bool.not_true, Bool.false_eq_true, if_false]
    cases hrole : C.role with
    | constructor => exact .stuck
    | plain t =>
      exact .left (sim_return hr good1 h.dest h3 h1 h2 h7 (.inl hrole) (fun r => by rw [g1'.temps rfl]; exact (h.ret r).2) (.inl rfl))

theorem case_superAccess {f : String} {cls : Option String} {i1 i2 : Instr} (hi1 : IdentGen g (cls.getD nameSuper) i1 g1)
    (hi2 : IdentGen g1 nameSelf i2 g') :
    FollowsE w N g (Src.eval w call · N true (.superAccess f cls)) (.block [.instr i1, .instr i2, .sym .loadMethod f]) g' := by
  intro C K W ts R σ m h
  try dsimp only
  rw [Src.eval]
  have gen1 : Gen g (.expr (.ident (cls.getD nameSuper))) (.instr i1) g1 := .ident hi1
  have gen2 : Gen g1 (.expr (.ident nameSelf)) (.instr i2) g' := .ident hi2
  have good1 := h.good.gen gen1
  refine Sim.seqI (r := fun v => v) (ident_sim hi1 h.good (h.dest.gen gen2 good1.inv) h.seg h.st) fun c m1 h1 => ?_
  refine Sim.seqI (r := fun v => v) (ident_sim hi2 good1 h.dest (h.seg.congr hi1.view) h1) fun s m2 h2 => .last ?_
  exact Sim.finish (.refl _ _) (Nat.le_refl _) (h.seg.congr (hi2.view.trans hi1.view)) (r := fun v => v) (Sim.op1 (h2.loadMethodOp f))

theorem case_call (hc : CallSpec w N call) {e : Expr} {es : List Expr} (g1' : Gen g (.expr e) c1 g1) (g2' : Gen g1 (.args es) c2 g2)
    (hg : g' = g2.setTemps g1.temps) (ih1 : Src.spine e = true → FollowsE w N g (Src.eval w call · N true e) c1 g1)
    (ih2 : FollowsL w N g1 (Src.evalAll w call · N es) es.length c2 g2) :
    FollowsE w N g (Src.eval w call · N true (.call e es)) (.block [c1, c2, .num .call es.length]) g' := by
  intro C K W ts R σ m h
  try dsimp only
  subst hg
  rw [Src.eval]
  refine Sim.guard fun hl => ?_
  simp only [Bool.and_eq_true, decide_eq_true_eq] at hl
  obtain ⟨hs, hl⟩ := hl
  have good2 := (h.good.gen g1').gen g2'
  have hd2 := (Keeps.pending g2 g1.temps).dest good2.inv h.dest
  have hh : Here C K g g2 (.block [c1, c2, .num .call es.length]) W ts R σ m := { h with dest := hd2 }
  refine Sim.sub (ih1 hs (hh.left g1' g2' (by hasfn))) fun v W1 σ1 m1 h1 h2 h3 h4 => ?_
  refine Sim.seq (ih2 (hh.right g1' (by hasfn) h3 h4)) ?_
  rintro ⟨vs, ρ⟩ σ2 m2 ⟨k1, W2, k2, k3, k4, k5, k6⟩
  cases k4
  simp only at k1
  rw [← k1]
  exact .last (Sim.finish (h1.trans h2 k2) (Nat.le_trans h2 k3) (k5.congr (setTemps_view _ _)) (r := fun v => v)
    (St.callOp hc (by omega) k6))

theorem S_assoc {α β γ : Type} (x : S α) (y : α → S β) (z : β → S γ) : x >>= y >>= z = x >>= fun a => y a >>= z := by
  funext σ
  show S.bind (S.bind x y) z σ = S.bind x _ σ
  unfold S.bind
  cases x σ with
  | mk o σ1 => cases o <;> rfl

theorem case_superCall (hc : CallSpec w N call) {es : List Expr} {v : ScopeVar} {i : Instr} (hv : g.lookup nameSelf = some v)
    (g1' : Gen g (.args es) c g1) (hi : IdentGen (g1.setTemps g.temps) nameSuper i g')
    (ih : FollowsL w N g (Src.evalAll w call · N es) es.length c g1) :
    FollowsE w N g (Src.eval w call · N true (.superCall es))
      (.block [.num .loadLocal v.slot, c, .instr i, .num .callSuper es.length]) g' := by
  intro C K W ts R σ m h
  try dsimp only
  rw [Src.eval]
  refine Sim.guard fun hl => ?_
  have hl : es.length ≤ 255 := by simpa using hl
  have good1 := h.good.gen g1'
  have good2 := good1.step (Keeps.pending g1 g.temps).step
  have gen2 : Gen (g1.setTemps g.temps) (.expr (.ident nameSuper)) (.instr i) g' := .ident hi
  have hd1 := (Keeps.pending g1 g.temps).dest good1.inv (h.dest.gen gen2 good2.inv)
  refine Sim.seqI (r := fun v => v) (local_sim hv h.good (hd1.gen g1' h.good.inv) h.seg h.st) fun s m1 h1 => ?_
  refine Sim.seq (ih ⟨h.good, hd1, fun b hb => h.fit b (by simp [Code.block, Code.HasFn, hb]), h.seg, h1, False.elim⟩) ?_
  rintro ⟨vs, ρ⟩ σ2 m2 ⟨k1, W2, k2, k3, k4, k5, k6⟩
  cases k4
  simp only at k1
  have hm2 := k5.congr (setTemps_view g1 g.temps)
  refine Sim.seqI (r := fun v => v) (ident_sim hi good2 h.dest hm2 k6) fun k m3 h2 => .last ?_
  rw [← k1]
  have hl' : vs.length ≤ 255 := by omega
  have := Sim.finish k2 k3 (hm2.congr hi.view) (r := fun v => v)
    (St.callSuperOp (w := w) (R := R) (J := Jmp C K W ts σ.store.length) hc hl' h2)
  rw [S_assoc] at this
  exact this

theorem case_index {e i : Expr} {d : Nat} (g1' : Gen g (.expr e) c1 g1) (h0 : g1.setCallDepth 0 = some g2)
    (g2' : Gen (g2.setTemps (g2.temps + 1)) (.expr i) c2 g3) (h3 : (g3.setTemps (g3.temps - 1)).setCallDepth d = some g')
    (ih1 : Src.spine e = true → FollowsE w N g (Src.eval w call · N true e) c1 g1)
    (ih2 : FollowsE w N (g2.setTemps (g2.temps + 1)) (Src.eval w call · N false i) c2 g3) :
    FollowsE w N g (Src.eval w call · N true (.index e i)) (.block [c1, c2, .op .loadIndex]) g' := by
  intro C K W ts R σ m h
  try dsimp only
  rw [Src.eval]
  refine Sim.guard fun hs => ?_
  have k0 : Keeps g1 (g2.setTemps (g2.temps + 1)) := (Keeps.depth h0).trans (.pending _ _)
  have k3 : Keeps g3 g' := (Keeps.pending g3 (g3.temps - 1)).trans (.depth h3)
  have good1 := h.good.gen g1'
  have good2 := good1.step k0.step
  have good3 := good2.gen g2'
  have hd3 := k3.dest good3.inv h.dest
  have hd1 := k0.dest good1.inv (hd3.gen g2' good2.inv)
  refine Sim.sub (ih1 hs ⟨h.good, hd1, fun b hb => h.fit b (by simp [Code.block, Code.HasFn, hb]), h.seg, h.st, h.ret⟩)
    fun v W1 σ1 m1 h1 h2 h3 h4 => ?_
  refine Sim.subOp (R' := False)
    (ih2 ⟨good2, hd3, fun b hb => h.fit b (by simp [Code.block, Code.HasFn, hb]), h3.congr k0.view, h4, False.elim⟩)
    fun u W2 σ2 m2 l1 l2 l3 l4 => .last ?_
  exact Sim.finish (h1.trans h2 l1) (Nat.le_trans h2 l2) (l3.congr k3.view) (r := fun v => v) (Sim.op1 l4.loadIndexOp)

end

end Dice.Sim
