import Verif.SimLoop

/-!
# Class declarations follow the evaluator
-/

namespace Dice.Sim

open Src (SEnv State Out S Jump)

section
variable {C : Cx} {K : Nat → Prop} {W W1 W2 : Wd} {ts ts1 : List Value} {σ σ1 : State} {m m1 : VM} {w : World} {N : Nat} {R : Prop}
  {g g1 g2 g3 g4 g5 g' : Env} {c c1 c2 c3 cb ci : Code} {call : Src.Calls} {n n1 : Nat}

theorem exec_assoc {f : Frame} {ups : Option (List Nat)} (a b c : Code) :
    exec w f ups (.seq (.seq a b) c) = exec w f ups (.seq a (.seq b c)) := by
  funext n
  simp only [exec, bind_assoc]
  congr 1
  funext ⟨s, k⟩
  cases s <;> simp [thenRun]

theorem exec_nop {f : Frame} {ups : Option (List Nat)} (c : Code) : exec w f ups (.seq .nop c) = exec w f ups c := by
  funext n
  simp [exec, thenRun]

theorem exec_seq {f : Frame} {ups : Option (List Nat)} {a b c : Code} (h : exec w f ups b = exec w f ups c) :
    exec w f ups (.seq a b) = exec w f ups (.seq a c) := by
  simp only [exec, h]

/-- What is known about the evaluator. -/
theorem Sim.know {α : Type} {x : X} {o : Out α × State} {Q : α → State → Sig → VM → Prop} {J : Jump → State → VM → Prop}
    {F : α → State → Prop} (h : Sim N R x m o Q J) (hf : ∀ a σ', o = (.ok a, σ') → F a σ') :
    Sim N R x m o (fun a σ' s m' => Q a σ' s m' ∧ F a σ') J := by
  rcases h with h | h
  · exact .inl h
  · refine .inr ?_
    obtain ⟨o, σ⟩ := o
    cases o with
    | ok a => obtain ⟨s, m', h1, h2⟩ := h; exact ⟨s, m', h1, h2, hf _ _ rfl⟩
    | _ => exact h

theorem setFieldOf_store {key : String} {o v : Value} {σ' : State} (h : Src.setFieldOf key o v σ = (.ok (), σ')) :
    σ'.store = σ.store := by
  unfold Src.setFieldOf at h
  split at h <;> cases h
  rfl

/-- The value of a class in its own variable. -/
structure Held (W : Wd) (σ : State) (slot l : Nat) (v : Value) : Prop where
  loc : slotLoc W.seg slot = some l
  val : σ.store[l]? = some (some v)
  byte : slot < 256

theorem Held.next {slot l : Nat} {v : Value} (h : Held W σ slot l v) (hs : W1.seg = W.seg) (he : σ1.store = σ.store) :
    Held W1 σ1 slot l v :=
  ⟨by rw [hs]; exact h.loc, by rw [he]; exact h.val, h.byte⟩

/-- The class is loaded again. -/
theorem St.reload {slot l : Nat} {v : Value} (h : St C K W ts σ m) (hh : Held W σ slot l v) :
    Does (istep w 0 C.f C.ups (.num .loadLocal slot)) m fun s m1 => s = .normal ∧ St C K W (v :: ts) σ m1 := by
  refine .istep (.known (operand_num _ hh.byte m) ((h.readLocal hh.loc hh.val).bind ?_))
  rintro u _ ⟨hu, rfl⟩
  exact (h.push hu).bind fun _ _ h => .pure ⟨rfl, h⟩

/-- A new function on top of the stack; the variables are as before. -/
theorem member_fn {k : FnKind} {args : List FnArg} {ret : Option TypeAnn} {body : Expr} {fn : Ctx} {bc : Bytecode} {name : String}
    {id : Nat} {α : Type} {kk : Value → S α} {Q : α → State → Sig → VM → Prop} {J : Jump → State → VM → Prop}
    (good : Good C g)
    (gen : Gen (g.pushFn (fnCompilerKind k ret)) (.fnBody k args (bodyExprs body) (bodyTrailing body)) c (fn :: g'))
    (hc : FnCode fn c bc) (fits : Fits bc) (hd : Dest C K g') (hm : Matches g W.seg) (h : St C K W ts σ m)
    (hk : ∀ W1 σ1 m1 v, W.Le σ.store.length W1 → W1.seg = W.seg → σ1.store = σ.store → v.kind = .function →
      St C K W1 (v :: ts) σ1 m1 → Sim N R (exec w C.f C.ups c1) m1 (kk v σ1) Q J) :
    Sim N R (exec w C.f C.ups (.seq (.instr (fnInstr bc name id fn.upvalues)) c1)) m
      ((Src.newFn (formOf k) args ret body (W.seg ++ C.out) >>= kk) σ) Q J := by
  refine Sim.seq (P := fun v σ' m' => Done C K W ts σ.store.length v σ' m' ∧ (σ'.store = σ.store ∧ v.kind = .function)) ?_ ?_
  · refine (Sim.know (F := fun v σ' => σ'.store = σ.store ∧ v.kind = .function)
      (.instr (h.newFnOp (k := k) good gen hc fits hd hm)) ?_).post ?_
    · intro a σ' he
      cases he
      exact ⟨rfl, rfl⟩
    · rintro a σ' s m' ⟨⟨h1, h2⟩, h3⟩
      exact ⟨h1, h2, h3⟩
  · rintro v σ1 m1 ⟨⟨W1, h1, h2, h3, h4⟩, h5, h6⟩
    exact hk W1 σ1 m1 v h1 h2 h5 h6 h4

theorem fit_fn {bc : Bytecode} {name : String} {id : Nat} {us : List UpvalueDescriptor} :
    (Code.instr (fnInstr bc name id us)).HasFn bc := by
  unfold fnInstr
  split <;> rfl

/-- A method. -/
theorem method_sim {name : String} {slot l : Nat} {v f : Value} {α : Type} {kk : S α} {Q : α → State → Sig → VM → Prop}
    {J : Jump → State → VM → Prop} (h : St C K W (f :: v :: ts) σ m) (hf : f.kind = .function) (hh : Held W σ slot l v)
    (hk : ∀ σ1 m1, Held W σ1 slot l v → σ1.store = σ.store → St C K W (v :: ts) σ1 m1 →
      Sim N R (exec w C.f C.ups c) m1 (kk σ1) Q J) :
    Sim N R (exec w C.f C.ups (.seq (.sym .storeMethod name) (.seq (.num .loadLocal slot) c))) m
      ((Src.setMethodOf name v f >>= fun _ => kk) σ) Q J := by
  refine Sim.seq (P := fun _ σ' m' => σ.store = σ'.store ∧ St C K W ts σ' m') (.instr (h.storeMethodOp hf name)) ?_
  rintro ⟨⟩ σ1 m1 ⟨h1, h2⟩
  have hh1 : Held W σ1 slot l v := hh.next rfl h1.symm
  exact Sim.step (h2.reload hh1) fun m2 h3 => hk σ1 m2 hh1 h1.symm h3

/-- A function that belongs to the class itself. -/
theorem static_sim {name : String} {slot l : Nat} {v f : Value} {α : Type} {kk : S α} {Q : α → State → Sig → VM → Prop}
    {J : Jump → State → VM → Prop} (h : St C K W (f :: v :: ts) σ m) (hh : Held W σ slot l v)
    (hk : ∀ σ1 m1, Held W σ1 slot l v → σ1.store = σ.store → St C K W (v :: ts) σ1 m1 →
      Sim N R (exec w C.f C.ups c) m1 (kk σ1) Q J) :
    Sim N R (exec w C.f C.ups (.seq (.sym .storeField name) (.seq (.op .pop) (.seq (.num .loadLocal slot) c)))) m
      ((Src.setFieldOf name v f >>= fun _ => kk) σ) Q J := by
  refine Sim.seq (P := fun _ σ' m' => σ'.store = σ.store ∧ St C K W (f :: ts) σ' m') ?_ ?_
  · refine (Sim.know (F := fun _ σ' => σ'.store = σ.store) (.instr (h.storeFieldOp name)) ?_).post ?_
    · intro a σ' he; exact setFieldOf_store he
    · rintro a σ' s m' ⟨⟨h1, -, h2⟩, h3⟩
      exact ⟨h1, h3, h2⟩
  · rintro ⟨⟩ σ1 m1 ⟨h1, h2⟩
    have hh1 : Held W σ1 slot l v := hh.next rfl h1
    exact Sim.step h2.popOp fun m2 h3 => Sim.step (h3.reload hh1) fun m3 h4 => hk σ1 m3 hh1 h1 h4

theorem memberForm_kind {k : ClassKind} {name : String} {args : List FnArg} {fk : FnKind} (h : classFnKind k name args = some fk) :
    Src.memberForm name args = some (formOf fk) ∧ fk ≠ .function := by
  unfold classFnKind at h
  unfold Src.memberForm
  cases args with
  | nil =>
    dsimp only
    simp only [List.head?_nil, Option.filter_none] at h
    split at h
    · cases h
    · rename_i hn
      cases h
      have hn : name ≠ "new" := by simpa [nameNew] using hn
      exact ⟨by rw [if_neg hn]; rfl, by simp⟩
  | cons a as =>
    dsimp only
    by_cases hs : a.name = "self"
    · simp only [List.head?_cons, Option.filter_some, nameSelf, hs, beq_self_eq_true, if_true] at h
      rw [if_pos hs]
      split at h
      · cases h
      · rename_i ht
        rw [if_neg ht]
        split at h
        · rename_i hn
          cases h
          have hn : name = "new" := by simpa [nameNew] using hn
          exact ⟨by rw [if_pos hn]; rfl, by simp⟩
        · rename_i hn
          cases h
          have hn : name ≠ "new" := by simpa [nameNew] using hn
          exact ⟨by rw [if_neg hn]; rfl, by simp⟩
    · simp only [List.head?_cons, Option.filter_some, nameSelf, beq_iff_eq, hs, if_false, Bool.false_eq_true] at h
      rw [if_neg hs]
      split at h
      · cases h
      · rename_i hn
        cases h
        have hn : name ≠ "new" := by simpa [nameNew] using hn
        exact ⟨by rw [if_neg hn]; rfl, by simp⟩

theorem cls_view {items : List Expr} {k : ClassKind} {slot : Nat} (gen : Gen g (.cls k items slot) c g') : g'.view = g.view := by
  induction items generalizing g c with
  | nil => cases gen; rfl
  | cons e es ih =>
    cases gen with
    | clsFn _ _ _ hb _ h2 => rw [ih h2, hb.outer.view]
    | clsOp _ _ _ hb _ h2 => rw [ih h2, hb.outer.view]

/-- The members of a class. -/
theorem members_sim {items : List Expr} {k : ClassKind} {slot l : Nat} {v : Value} (gen : Gen g (.cls k items slot) c g')
    (good : Good C g) (hd : Dest C K g') (hf : ∀ b, c.HasFn b → Fits b) (hm : Matches g W.seg) (hh : Held W σ slot l v)
    (h : St C K W (v :: ts) σ m) {J : Jump → State → VM → Prop} :
    Sim N R (exec w C.f C.ups c) m (Src.members v items (W.seg ++ C.out) σ)
      (Norm fun _ σ' m' => Kept C K W (v :: ts) σ.store.length σ' m') J := by
  induction items generalizing g c W σ m with
  | nil =>
    cases gen
    exact .nop ⟨rfl, W, .refl _ _, rfl, Nat.le_refl _, h⟩
  | cons e es ih =>
    have more : ∀ {g1 c2 W1 σ1 m1}, Gen g1 (.cls k es slot) c2 g' → g1.view = g.view → Good C g1 → (∀ b, c2.HasFn b → Fits b) →
        W.Le σ.store.length W1 → W1.seg = W.seg → σ1.store = σ.store → Held W1 σ1 slot l v → St C K W1 (v :: ts) σ1 m1 →
        Sim N R (exec w C.f C.ups (.seq c2 .nop)) m1 (Src.members v es (W.seg ++ C.out) σ1)
          (Norm fun _ σ' m' => Kept C K W (v :: ts) σ.store.length σ' m') J := by
      intro g1 c2 W1 σ1 m1 h2 hv good1 hf1 hle hs he hh1 h1
      have := ih h2 good1 hf1 (by rw [hs]; exact hm.congr hv) hh1 h1
      rw [hs] at this
      refine .last (this.post ?_)
      rintro _ σ' s m' ⟨rfl, h3⟩
      exact ⟨rfl, h3.back hle hs (by rw [he]; exact Nat.le_refl _)⟩
    cases gen with
    | clsFn hk hr hu hb hc h2 =>
      have step := stepRel.fn (hb.rel stepRel)
      have good1 := good.step step
      have hd1 := hd.gen h2 good1.inv
      obtain ⟨hform, hnf⟩ := memberForm_kind hk
      have next := fun {W1 σ1 m1} => more (W1 := W1) (σ1 := σ1) (m1 := m1) h2 hb.outer.view good1
        fun b hb' => hf b (.inr (.inr (.inl hb')))
      rw [Src.members, hform]
      rename_i fk fn bc id
      cases fk with
      | function => exact absurd rfl hnf
      | staticMethod =>
        refine member_fn (k := .staticMethod) good hb hc (hf _ (.inl fit_fn)) hd1 hm h fun W1 σ1 m1 f a1 a2 a3 a4 a5 => ?_
        show Sim N R (exec w C.f C.ups (.seq (.seq _ (.seq _ (.seq _ .nop))) _)) _ _ _ _
        rw [exec_assoc, exec_seq (exec_assoc _ _ _), exec_seq (exec_seq (exec_assoc _ _ _)), exec_seq (exec_seq (exec_seq (exec_nop _)))]
        refine static_sim a5 (hh.next a2 a3) fun σ2 m2 b1 b2 b3 => ?_
        exact next a1 a2 (b2.trans a3) b1 b3
      | method =>
        refine member_fn (k := .method) good hb hc (hf _ (.inl fit_fn)) hd1 hm h fun W1 σ1 m1 f a1 a2 a3 a4 a5 => ?_
        show Sim N R (exec w C.f C.ups (.seq (.seq _ _) _)) _ _ _ _
        rw [exec_assoc]
        refine method_sim a5 a4 (hh.next a2 a3) fun σ2 m2 b1 b2 b3 => ?_
        exact next a1 a2 (b2.trans a3) b1 b3
      | constructor j =>
        refine member_fn (k := .constructor j) good hb hc (hf _ (.inl fit_fn)) hd1 hm h fun W1 σ1 m1 f a1 a2 a3 a4 a5 => ?_
        show Sim N R (exec w C.f C.ups (.seq (.seq _ _) _)) _ _ _ _
        rw [exec_assoc]
        refine method_sim a5 a4 (hh.next a2 a3) fun σ2 m2 b1 b2 b3 => ?_
        exact next a1 a2 (b2.trans a3) b1 b3
    | clsOp ha hat hu hb hc h2 =>
      have step := stepRel.fn (hb.rel stepRel)
      have good1 := good.step step
      have hd1 := hd.gen h2 good1.inv
      rw [Src.members]
      refine member_fn (k := .method) good hb hc (hf _ (.inl fit_fn)) hd1 hm h fun W1 σ1 m1 f a1 a2 a3 a4 a5 => ?_
      refine method_sim a5 a4 (hh.next a2 a3) fun σ2 m2 b1 b2 b3 => ?_
      exact more h2 hb.outer.view good1 (fun b hb => hf b (by simp [Code.block, Code.HasFn, hb])) a1 a2 (b2.trans a3) b1 b3

/-- The base of a class. -/
def evalBase (w : World) (call : Src.Calls) (r : Src.Role) (n : Nat) : Option Expr → SEnv → S (Value × SEnv)
  | none, ρ => do
    let b ← Src.readVar ρ "Any"
    pure (b, ρ)
  | some e, ρ => Src.eval w call r n false e ρ

theorem case_baseSome {e : Expr} (ih : FollowsE w N g (Src.eval w call · N false e) c g') :
    FollowsE w N g (evalBase w call · N (some e)) c g' := ih

theorem case_baseNone {i : Instr} (hi : IdentGen g nameAny i g') :
    FollowsE w N g (evalBase w call · N none) (.instr i) g' := by
  intro C K W ts R σ m h
  have := case_ident (w := w) (N := N) (call := call) hi h
  dsimp only at this
  rw [Src.eval] at this
  exact this

theorem eval_classDecl {name : String} {base : Option Expr} {items : List Expr} {r : Src.Role} {ρ : SEnv} :
    Src.eval w call r N false (.classDecl name base items) ρ =
      (Src.classDecl w name items (evalBase w call r N base) ρ >>= fun c => pure (c, ρ)) := by
  cases base with
  | none => simp only [Src.eval]; rfl
  | some e => simp only [Src.eval]; rfl

/-- What follows the base of a class. -/
def classTail (w : World) (name : String) (items : List Expr) (b : Value) (ρ : SEnv) : S Value := do
  let s ← Src.alloc (some b)
  match (("super", s) :: ρ).lookup name with
  | some l => do
    let c ← Src.derive w name b
    Src.writeLoc l c
    Src.members c items (("super", s) :: ρ)
    pure c
  | none => S.stuck

theorem classTail_some {name : String} {items : List Expr} {b : Value} {ρ : SEnv} {l : Nat}
    (h : (("super", σ.store.length) :: ρ).lookup name = some l) :
    classTail w name items b ρ σ = (Src.derive w name b >>= fun c => Src.writeLoc l c >>= fun _ =>
      Src.members c items (("super", σ.store.length) :: ρ) >>= fun _ => pure c) { σ with store := σ.store ++ [some b] } := by
  show (match (("super", σ.store.length) :: ρ).lookup name with
    | some l => (Src.derive w name b >>= fun c => Src.writeLoc l c >>= fun _ =>
        Src.members c items (("super", σ.store.length) :: ρ) >>= fun _ => pure c : S Value)
    | none => S.stuck) { σ with store := σ.store ++ [some b] } = _
  rw [h]

theorem case_classDecl {name : String} {base : Option Expr} {items : List Expr} {superSlot : Nat} {v : ScopeVar} {vars : List ScopeVar}
    (h0 : g.pushScope .block false = some g1) (hb : Gen g1 (.base base) cb g2)
    (hsup : g2.addLocal nameSuper (.initialized true) = some (superSlot, g3)) (hv : g3.lookup name = some v)
    (hg : g4 = if v.state = .class false then g3.setState name (.class true) else g3)
    (hi : Gen g4 (.cls (if base.isSome then .derived else .base) items v.slot) ci g5) (hp : g5.popScope = some (vars, g'))
    (ih : FollowsE w N g1 (evalBase w call · N base) cb g2) :
    FollowsE w N g (Src.eval w call · N false (.classDecl name base items))
      (.block [cb, .num .storeLocal superSlot, .sym .inheritClass name, .num .storeLocal v.slot, ci, closeCode vars]) g' := by
  intro C K W ts R σ m h
  try dsimp only
  rw [eval_classDecl]
  have hstep4 : Step g3 g4 := by
    rw [hg]; split
    · exact stepRel.setState _ _ _
    · exact stepRel.refl _
  have hwid4 : Widens g3 g4 := by
    rw [hg]; split
    · exact widensRel.setState _ _ _
    · exact widensRel.refl _
  have hview4 : g4.view = g3.view := by
    rw [hg]; split
    · exact setState_view _ _ _
    · rfl
  have good1 := h.good.step (stepRel.pushScope h0)
  have good2 := good1.gen hb
  have good3 := good2.step (stepRel.addLocal hsup)
  have good4 := good3.step hstep4
  have good5 := good4.gen hi
  have hv' : g'.view = g.view :=
    (Widens.scope h0 (widensRel.trans hb.widens (widensRel.trans (widensRel.addLocal hsup) (widensRel.trans hwid4 hi.widens))) hp
      h.good.inv).2.1
  have hk : W.seg.length = g'.vars.length := (h.seg.congr hv').length
  have hd5 := h.dest.inner hp good5.inv
  have hd4 := hd5.gen hi good4.inv
  have hd3 := hd4.back hstep4 good3.inv fun s hs => hd4.flags s ((hwid4 good3.inv).2.2 s hs)
  have hd2 := hd3.back (stepRel.addLocal hsup) good2.inv fun s hs => hd3.flags s ((widensRel.addLocal hsup good2.inv).2.2 s hs)
  have hst : St C (inner K g'.vars.length g5) W ts σ m := h.st.weaken fun s hlt hks => .inl ⟨by omega, hks⟩
  have run := ih (C := C) (W := W) (ts := ts) (R := R) (σ := σ) (m := m)
    ⟨good1, hd2, fun b hb => h.fit b (by simp [Code.block, Code.HasFn, hb]), matches_push h.seg h0, hst, fun r => ⟨(h.ret r).1, by
      rw [temps_pending, pushScope_pending h0, ← temps_pending]; exact (h.ret r).2⟩⟩
  have left : ∀ {ts ρ' σ' m'}, Left C (inner K g'.vars.length g5) W ts σ.store.length ρ' σ' m' →
      Left C K W ts σ.store.length ρ' σ' m' := by
    rintro ts ρ' σ' m' ⟨W', l1, l2, l3, l4⟩
    refine ⟨W', l1, l2, l3, l4.weaken fun s _ hs => ?_⟩
    rcases hs with (hs | hs) | hs
    · exact .inl hs.2
    · right; omega
    · right; omega
  rw [show Src.classDecl w name items (evalBase w call C.role N base) (W.seg ++ C.out) =
    (evalBase w call C.role N base (W.seg ++ C.out) >>= fun p => classTail w name items p.1 p.2) from rfl, S_assoc]
  refine Sim.sub (run.mono (fun _ _ _ _ h => h) id fun j σ' m' hj => ?_) fun b W1 σ1 m1 a1 a2 a3 a4 => ?_
  · cases j with
    | brk => exact left hj
    | cont => exact left hj
    | ret => exact left hj
    | bad => trivial
    | exit => exact left hj
  obtain ⟨rfl, k2, k3, k4, -⟩ := addLocal_slot good2.inv hsup a3 hd3
  refine Sim.step (a4.storeLocalOp (Nat.le_refl _) k2 k3) fun m2 b1 => ?_
  have b2 := b1.1.alloc (o := some b) nameSuper k2 (by rintro _ ⟨⟩; exact b1.2)
  have hm3 := k4 σ1.store.length
  have hle2 := W1.le_alloc nameSuper σ1.store.length σ1.store.length (Nat.le_refl _)
  generalize hW2 : ({ W1 with seg := (nameSuper, σ1.store.length) :: W1.seg } : Wd) = W2 at b2 hle2
  have hseg2 : W2.seg = (nameSuper, σ1.store.length) :: W1.seg := by rw [← hW2]
  rw [← hseg2] at hm3
  obtain ⟨l, e1, e2⟩ := hm3.lookup_some good3.inv hv
  have e3 : (("super", σ1.store.length) :: (W1.seg ++ C.out)).lookup name = some l := by
    have : (W2.seg ++ C.out).lookup name = some l := by rw [List.lookup_append, e1]; rfl
    rw [hseg2] at this
    exact this
  have h256 : v.slot < 256 := by
    have k1 := slotLoc_lt e2
    have k2 := hd3.slots
    have k3 := Env.vars_le good3.inv
    have k4 := hm3.length
    omega
  dsimp only
  show Sim N R _ m2 ((classTail w name items b (W1.seg ++ C.out) >>= fun c => pure (c, W.seg ++ C.out)) σ1) _ _
  have hlt : l < (({ σ1 with store := σ1.store ++ [some b] } : State).store).length :=
    b2.inv.bound _ _ (C.lam_slot e2)
  rw [show (classTail w name items b (W1.seg ++ C.out) >>= fun c => pure (c, W.seg ++ C.out)) σ1 =
      (Src.derive w name b >>= fun c => Src.writeLoc l c >>= fun _ => Src.members c items (W2.seg ++ C.out) >>= fun _ =>
        pure (c, W.seg ++ C.out)) { σ1 with store := σ1.store ++ [some b] } by
    have : (classTail w name items b (W1.seg ++ C.out) >>= fun c => pure (c, W.seg ++ C.out)) σ1 =
        ((Src.derive w name b >>= fun c => Src.writeLoc l c >>= fun _ =>
          Src.members c items (("super", σ1.store.length) :: (W1.seg ++ C.out)) >>= fun _ => pure c) >>= fun c =>
          pure (c, W.seg ++ C.out)) { σ1 with store := σ1.store ++ [some b] } := by
      show S.bind _ _ _ = S.bind _ _ _
      unfold S.bind
      rw [classTail_some e3]
    rw [this, hseg2]
    simp only [S_assoc]
    rfl]
  refine Sim.seq (P := fun c σ' m' => σ1.store ++ [some b] = σ'.store ∧ St C (inner K g'.vars.length g5) W2 (c :: ts) σ' m' ∧ ∃ k, c = .cls k)
    (.instr (b2.inheritClassOp name)) ?_
  rintro c σ2 m3 ⟨d1, d2, -⟩
  refine Sim.seq (P := fun _ σ' m' => σ'.store = σ2.store.set l (some c) ∧ St C (inner K g'.vars.length g5) W2 (c :: ts) σ' m') ?_ ?_
  · refine (Sim.know (F := fun _ σ' => σ'.store = σ2.store.set l (some c)) (.instr (d2.storeVarOp e2 h256)) ?_).post ?_
    · intro a σ' he
      cases he
      rfl
    · rintro a σ' s m' ⟨⟨h1, -, h2⟩, h3⟩
      exact ⟨h1, h3, h2⟩
  rintro ⟨⟩ σ3 m4 ⟨d3, d4⟩
  have hlen3 : σ3.store.length = σ1.store.length + 1 := by rw [d3, List.length_set, ← d1]; simp
  have held : Held W2 σ3 v.slot l c := by
    refine ⟨e2, ?_, h256⟩
    rw [d3, ← d1]
    exact List.getElem?_set_self hlt
  refine Sim.seq (P := fun _ σ' m' => Kept C (inner K g'.vars.length g5) W2 (c :: ts) σ3.store.length σ' m')
    (members_sim hi good4 hd5 (fun b hb => h.fit b (by simp [Code.block, Code.HasFn, hb])) (hm3.congr hview4) held d4) ?_
  rintro ⟨⟩ σ4 m5 ⟨W3, f1, f2, f3, f4⟩
  have hle3 : W.Le σ.store.length W3 := (a1.trans a2 hle2).trans (by omega) f1
  have hm5 : Matches g5 W3.seg := by rw [f2]; exact (hm3.congr hview4).congr (cls_view hi)
  refine .last (.ofDoes (f4.endScope hp good5.inv h.dest hm5 hk hle3) ?_)
  intro m6 h6
  exact ⟨rfl, _, hle3.drop, by omega, rfl, h.seg.congr hv', h6⟩

end

end Dice.Sim
