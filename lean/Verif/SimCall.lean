import Verif.SimGen

/-!
# Calls follow the evaluator
-/

namespace Dice.Sim

open Src (SEnv State Out S Jump)

/-! ## Instructions that leave the frame as it is -/

/-- The machine stays as it is. -/
def Reads {β : Type} (y : V β) : Prop := ∀ m b m', y m = (.ok b, m') → m' = m

/-- A value on top of the stack is new. -/
def Grows {β : Type} (y : V β) : Prop := ∀ m b m', y m = (.ok b, m') → m'.ptr = m.ptr + 1 ∧ ∀ p, p < m.ptr → m'.mem p = m.mem p

theorem Reads.pure {β : Type} (b : β) : Reads (pure b : V β) := by
  rintro m _ _ ⟨⟩; rfl

theorem bind_done {β γ : Type} {y : V β} {k : β → V γ} {m m' : VM} {c : γ} (h : (y >>= k) m = (.ok c, m')) :
    ∃ b m1, y m = (.ok b, m1) ∧ k b m1 = (.ok c, m') := by
  cases hy : y m with
  | mk o m1 =>
    cases o with
    | ok b => exact ⟨b, m1, rfl, (bind_ok hy).symm.trans h⟩
    | err e => rw [bind_err hy] at h; cases h
    | panic s => rw [bind_panic hy] at h; cases h
    | timeout => rw [bind_timeout hy] at h; cases h

theorem Reads.bind {β γ : Type} {y : V β} {k : β → V γ} (h : Reads y) (hk : ∀ b, Reads (k b)) : Reads (y >>= k) := by
  intro m c m' he
  obtain ⟨b, m1, h1, h2⟩ := bind_done he
  rw [hk b _ _ _ h2, h _ _ _ h1]

theorem Reads.grows {β γ : Type} {y : V β} {k : β → V γ} (h : Reads y) (hk : ∀ b, Grows (k b)) : Grows (y >>= k) := by
  intro m c m' he
  obtain ⟨b, m1, h1, h2⟩ := bind_done he
  have := hk b _ _ _ h2
  rwa [h _ _ _ h1] at this

theorem Grows.reads {β γ : Type} {y : V β} {k : β → V γ} (h : Grows y) (hk : ∀ b, Reads (k b)) : Grows (y >>= k) := by
  intro m c m' he
  obtain ⟨b, m1, h1, h2⟩ := bind_done he
  rw [hk b _ _ _ h2]
  exact h _ _ _ h1

theorem grows_push (v : Value) : Grows (push v) := by
  intro m b m' h
  unfold Dice.push at h
  split at h
  · cases h
    exact ⟨rfl, fun p hp => upd_other (by omega)⟩
  · cases h

theorem reads_operand (bc : Bytecode) (pos : Nat) : Reads (operand bc pos) := by
  unfold operand
  split
  · exact .pure _
  · rintro m b m' ⟨⟩

theorem reads_frameGet (f : Frame) (s : Nat) : Reads (frameGet f s) := by
  intro m b m' h
  unfold frameGet at h
  split at h <;> cases h
  rfl

theorem reads_upvalueAt (ups : Option (List Nat)) (i : Nat) : Reads (upvalueAt ups i) := by
  unfold upvalueAt
  split
  · rintro m b m' ⟨⟩
  · split
    · exact .pure _
    · rintro m b m' ⟨⟩

theorem reads_readCell (a : Nat) : Reads (readCell a) := by
  intro m b m' h
  unfold readCell at h
  split at h
  · unfold memGet at h
    split at h <;> cases h
    rfl
  · cases h; rfl
  · cases h

theorem reads_symbol (bc : Bytecode) (pos : Nat) : Reads (symbolOperand bc pos) := by
  refine (reads_operand bc pos).bind fun i => Reads.bind ?_ fun c => ?_
  · unfold constant
    split
    · exact .pure _
    · rintro m b m' ⟨⟩
  · unfold asSymbol
    split
    · exact .pure _
    · rintro m b m' ⟨⟩

theorem reads_global (name : String) : Reads (globalValue name) := by
  intro m b m' h
  unfold globalValue at h
  split at h <;> cases h
  rfl

theorem reads_asClass (v : Value) : Reads (asClass v) := by
  unfold asClass
  split
  · exact .pure _
  · rintro m b m' ⟨⟩

theorem reads_assertTypeOf (w : World) (n : Bool) (c : Nat) (v : Value) : Reads (assertTypeOf w n c v) := by
  unfold assertTypeOf
  split
  · split
    · exact .pure _
    · rintro m b m' ⟨⟩
  · intro m b m' h
    unfold assertType at h
    split at h <;> cases h
    rfl

theorem grows_ident {g g' : Env} {x : String} {i : Instr} {w : World} {n : Nat} {f : Frame} {ups : Option (List Nat)}
    (h : IdentGen g x i g') : Grows (istep w n f ups i) := by
  cases h with
  | «local» =>
    exact ((reads_operand _ _).grows fun s => (reads_frameGet f s).grows fun v => (grows_push v).reads fun _ => .pure _).reads fun _ => .pure _
  | captured =>
    exact ((reads_operand _ _).grows fun s => (reads_upvalueAt ups s).grows fun a => (reads_readCell a).grows fun v =>
      (grows_push v).reads fun _ => .pure _).reads fun _ => .pure _
  | global =>
    exact ((reads_symbol _ _).grows fun s => Grows.reads ((reads_global s).grows grows_push) fun _ => .pure _).reads fun _ => .pure _

/-- A check of a variable pops a class. -/
theorem check_drops {w : World} {n : Nat} {f : Frame} {ups : Option (List Nat)} {b : Bool} {slot : Nat} {m m' : VM} {s : Sig}
    (h : istep w n f ups (.num (localCheck b) slot) m = (.ok s, m')) : ∀ p, p + 1 < m.ptr → m'.mem p = m.mem p := by
  have key : ∃ v m1, pop m = (.ok v, m1) ∧ m' = m1 := by
    cases b
    all_goals
      obtain ⟨b1, m1, h1, h2⟩ := bind_done h
      obtain ⟨v, m2, h3, h4⟩ := bind_done (y := pop) h1
      cases h2
      refine ⟨v, m2, h3, ?_⟩
      exact ((reads_asClass v).bind fun c => (reads_operand _ _).bind fun s => (reads_frameGet f s).bind fun u =>
        (reads_assertTypeOf w _ c u).bind fun _ => .pure _) _ _ _ h4
  obtain ⟨v, m1, h1, rfl⟩ := key
  intro p hp
  unfold Dice.pop at h1
  split at h1 <;> cases h1
  exact upd_other (by omega)

theorem exec_instr_ok {w : World} {f : Frame} {ups : Option (List Nat)} {i : Instr} {n k : Nat} {s : Sig} {m m' : VM}
    (h : exec w f ups (.instr i) n m = (.ok (s, k), m')) : ∃ j, istep w j f ups i m = (.ok s, m') := by
  cases n with
  | zero => cases h
  | succ j =>
    obtain ⟨b, m1, h1, h2⟩ := bind_done (y := istep w j f ups i) h
    cases h2
    exact ⟨_, h1⟩

theorem exec_seq_ok {w : World} {f : Frame} {ups : Option (List Nat)} {a b : Code} {n k : Nat} {s : Sig} {m m' : VM}
    (h : exec w f ups (.seq a b) n m = (.ok (s, k), m')) :
    exec w f ups a n m = (.ok (s, k), m') ∨ ∃ j m1, exec w f ups a n m = (.ok (.normal, j), m1) ∧ exec w f ups b j m1 = (.ok (s, k), m') := by
  obtain ⟨⟨s1, j⟩, m1, h1, h2⟩ := bind_done (y := exec w f ups a n) h
  cases s1 with
  | normal => exact .inr ⟨j, m1, h1, h2⟩
  | _ => cases h2; exact .inl h1

theorem type_keeps {w : World} {f : Frame} {ups : Option (List Nat)} {g g' : Env} {slot : Nat} {t : Option TypeAnn} {ct : Code}
    (ht : TypeGen g slot t ct g') {n k : Nat} {s : Sig} {m m' : VM} (h : exec w f ups ct n m = (.ok (s, k), m')) :
    ∀ p, p < m.ptr → m'.mem p = m.mem p := by
  cases ht with
  | none => cases h; exact fun _ _ => rfl
  | some hi =>
    rcases exec_seq_ok h with h | ⟨j, m1, h1, h2⟩
    · obtain ⟨j, h⟩ := exec_instr_ok h
      exact (grows_ident hi _ _ _ h).2
    · obtain ⟨j1, h1⟩ := exec_instr_ok h1
      obtain ⟨j2, h2⟩ := exec_instr_ok h2
      obtain ⟨k1, k2⟩ := grows_ident hi _ _ _ h1
      intro p hp
      rw [check_drops h2 p (by omega), k2 p hp]

section
variable {C : Cx} {K : Nat → Prop} {W W1 W2 : Wd} {ts ts1 : List Value} {σ σ1 : State} {m m1 : VM} {w : World} {N : Nat} {R : Prop}
  {g g1 g2 g3 g4 g5 g' : Env} {c c1 c2 c3 : Code} {call : Src.Calls} {n n1 : Nat}

/-- What is known about the machine from its run. -/
theorem Sim.seen {α : Type} {x : X} {o : Out α × State} {Q : α → State → Sig → VM → Prop} {J : Jump → State → VM → Prop}
    {F : VM → Prop} (h : Sim N R x m o Q J) (hf : ∀ n s k m', x n m = (.ok (s, k), m') → F m') :
    Sim N R x m o (fun a σ' s m' => Q a σ' s m' ∧ F m') J := by
  rcases h with h | h
  · exact .inl h
  · refine .inr ?_
    obtain ⟨o, σ⟩ := o
    cases o with
    | ok a =>
      obtain ⟨s, m', ⟨n, h1, h2⟩, h3⟩ := h
      refine ⟨s, m', ⟨n, h1, h2⟩, h3, ?_⟩
      cases hx : x n m with
      | mk o m2 =>
        rw [hx] at h1 h2
        simp only at h2
        subst h2
        cases o with
        | ok r => obtain ⟨s, k⟩ := r; exact hf n s k _ hx
        | err | panic | timeout => cases h1
    | _ => exact h

/-! ## The body of a function -/

/-- After the parameters of a function. -/
def Bound (C : Cx) (K : Nat → Prop) (W : Wd) (g' : Env) (ts : List Value) (n : Nat) (ρ : SEnv) (σ' : State) (m' : VM) : Prop :=
  ∃ W', ρ = W'.seg ++ C.out ∧ W.Le n W' ∧ n ≤ σ'.store.length ∧ Matches g' W'.seg ∧ St C K W' ts σ' m'

theorem ParamsGen.vars_length {args : List FnArg} (hp : ParamsGen g args c g') (inv : StackInv g) :
    g'.vars.length = g.vars.length + args.length := by
  induction hp with
  | nil => rfl
  | @cons g g1 g2 g3 a rest slot c1 c2 hl ht _ ih =>
    have inv1 := ((stepRel.addLocal hl).2.1 inv).1
    rw [ih ((ht.rel stepRel).2.1 inv1).1, Env.vars_view g2, TypeGen.view ht, ← Env.vars_view g1, (addLocal_vars inv hl).2]
    simp only [List.length_cons]
    omega

/-- The parameters of a call: the values are in the slots, the code checks their types. -/
theorem params_sim {args : List FnArg} {vs : List Value} {J : Jump → State → VM → Prop} (hp : ParamsGen g args c g') (good : Good C g)
    (hd : Dest C K g') (hm : Matches g W.seg)
    (hv : ∀ (i : Nat) v, vs[i]? = some v → i < args.length → VRel W.kap v (m.mem (C.f.start + W.seg.length + i))) (h : St C K W ts σ m) :
    Sim N R (exec w C.f C.ups c) m (Src.bindParams w args vs (W.seg ++ C.out) σ) (Norm (Bound C K W g' ts σ.store.length)) J := by
  induction hp generalizing W σ vs m with
  | nil => exact .nop ⟨rfl, W, rfl, .refl _ _, Nat.le_refl _, hm, h⟩
  | @cons g g1 g2 g3 a rest slot c1 c2 hl htg hr ih =>
    have good1 := good.step (stepRel.addLocal hl)
    have good2 := good1.step (htg.rel stepRel)
    have hd2 : Dest C K g2 := hd.back (hr.rel stepRel) good2.inv fun s hf =>
      hd.flags s ((hr.srel widensRel.toScopeRel good2.inv).2.2 s hf)
    have hd1 := TypeGen.dest htg good1.inv hd2
    obtain ⟨rfl, k2, k3, k4, -⟩ := addLocal_slot good.inv hl hm hd1
    have hst := h.alloc (o := vs.head?) a.name k2 (by
      intro v he
      have := hv 0 v (by rw [← List.head?_eq_getElem?]; exact he) (by simp)
      simpa using this)
    have hptr := h.ptr_eq
    have hroom := hd.room
    unfold Src.bindParams
    show Sim N R _ m ((Src.checkVar w a.type_ σ.store.length (((a.name, σ.store.length) :: W.seg) ++ C.out) >>= fun _ =>
      Src.bindParams w rest vs.tail (((a.name, σ.store.length) :: W.seg) ++ C.out)) { σ with store := σ.store ++ [vs.head?] }) _ J
    have check := type_sim (w := w) (N := N) (R := R) (J := J) htg good1 hd2 (k4 _) (slotLoc_cons a.name _ _) k3 hst
    refine Sim.seq (P := fun _ σ' m' => (σ' = { σ with store := σ.store ++ [vs.head?] } ∧ St C K _ ts _ m') ∧ ∀ p, p < m.ptr → m'.mem p = m.mem p)
      ((check.seen (F := fun m' => ∀ p, p < m.ptr → m'.mem p = m.mem p) fun n s k m' hx => type_keeps htg hx).post
        fun _ _ _ _ h => ⟨h.1.1, h.1.2, h.2⟩) ?_
    rintro _ _ m1 ⟨⟨rfl, h1⟩, hmem⟩
    have := ih (vs := vs.tail) (W := { W with seg := (a.name, σ.store.length) :: W.seg }) good2 hd ((k4 _).congr (TypeGen.view htg)) (by
        intro i v he hlt
        have := hv (i + 1) v (by rw [← List.getElem?_tail]; exact he) (by simp; omega)
        simp only [List.length_cons]
        have hb : C.f.start + W.seg.length + (i + 1) < m.ptr := by
          have := ParamsGen.vars_length hr good2.inv
          have h5 := Env.vars_le ((hr.rel stepRel).2.1 good2.inv).1
          have h6 := ((k4 σ.store.length).congr (TypeGen.view htg)).length
          simp only [List.length_cons] at h6
          omega
        rw [show C.f.start + (W.seg.length + 1) + i = C.f.start + W.seg.length + (i + 1) by omega, hmem _ hb]
        exact this) h1
    refine this.post ?_
    rintro ρ σ2 s m2 ⟨rfl, W', q1, q2, q3, q4, q5⟩
    simp only [List.length_append] at q3
    exact ⟨rfl, W', q1, (W.le_alloc a.name _ _ (Nat.le_refl _)).trans (by simp) q2, by omega, q4, q5⟩

/-- The receiver and the parameters. -/
theorem args_sim {k : FnKind} {args : List FnArg} {ret : Option TypeAnn} {body : Expr} {self : Value} {vs : List Value}
    {J : Jump → State → VM → Prop} (ha : ArgsGen g k args c g') (good : Good C g) (hd : Dest C K g') (hm : Matches g W.seg) (hw : W.seg = [])
    (hself : VRel W.kap self (m.mem C.f.start)) (hvs : ∀ (i : Nat) v, vs[i]? = some v → VRel W.kap v (m.mem (C.f.start + 1 + i)))
    (h : St C K W ts σ m) :
    Sim N R (exec w C.f C.ups c) m (Src.bindArgs w ⟨formOf k, args, ret, body, C.out⟩ self vs σ) (Norm (Bound C K W g' ts σ.store.length)) J := by
  cases ha with
  | noReceiver hk hl hp =>
    have good1 := good.step (stepRel.addLocal hl)
    have hd1 : Dest C K _ := hd.back (hp.rel stepRel) good1.inv fun s hf => hd.flags s ((hp.srel widensRel.toScopeRel good1.inv).2.2 s hf)
    obtain ⟨rfl, k2, k3, k4, -⟩ := addLocal_slot good.inv hl hm hd1
    have hst := h.alloc (o := some self) "" k2 (by rintro v ⟨⟩; rw [hw]; exact hself)
    have hform : formOf k = .function := by rcases hk with rfl | rfl <;> rfl
    have := params_sim (w := w) (N := N) (R := R) (J := J) (vs := vs) (W := { W with seg := ("", σ.store.length) :: W.seg }) hp good1 hd (k4 _) (by
      intro i v hi _
      simp only [hw]
      exact hvs i v hi) hst
    unfold Src.bindArgs
    rw [hform]
    show Sim N R _ m (Src.bindParams w args vs (("", σ.store.length) :: C.out) { σ with store := σ.store ++ [some self] }) _ J
    have e : (("", σ.store.length) :: W.seg) ++ C.out = ("", σ.store.length) :: C.out := by rw [hw]; rfl
    rw [e] at this
    refine this.post ?_
    rintro ρ σ2 s m2 ⟨rfl, W', q1, q2, q3, q4, q5⟩
    simp only [List.length_append] at q3
    exact ⟨rfl, W', q1, (W.le_alloc "" _ _ (Nat.le_refl _)).trans (by simp) q2, by omega, q4, q5⟩
  | receiver hk hp =>
    have hform : formOf k = .method ∨ formOf k = .constructor := by
      cases k with
      | function => exact absurd (.inl rfl) hk
      | staticMethod => exact absurd (.inr rfl) hk
      | method => exact .inl rfl
      | constructor => exact .inr rfl
    have := params_sim (w := w) (N := N) (R := R) (J := J) (vs := self :: vs) (W := W) hp good hd hm (by
      intro i v hi _
      rw [hw]
      cases i with
      | zero => cases hi; exact hself
      | succ i =>
        have := hvs i v (by simpa using hi)
        show VRel W.kap v (m.mem (C.f.start + 0 + (i + 1)))
        rw [show C.f.start + 0 + (i + 1) = C.f.start + 1 + i by omega]
        exact this) h
    have e : Src.bindArgs w ⟨formOf k, args, ret, body, C.out⟩ self vs = Src.bindParams w args (self :: vs) (W.seg ++ C.out) := by
      unfold Src.bindArgs
      rw [hw]
      rcases hform with h | h <;> rw [h] <;> rfl
    rw [e]
    exact this

theorem bodyStmts_eq (body : Expr) : Src.bodyStmts body = bodyExprs body := by cases body <;> rfl

theorem bodyResult_eq (body : Expr) : Src.bodyResult body = bodyTrailing body := by cases body <;> rfl

theorem popScope_topVars {vars : List ScopeVar} (h : g.popScope = some (vars, g')) : g.topVars = vars := by
  obtain ⟨c, rest, top, st, rfl, hst, rfl, rfl⟩ := popScope_split h
  simp [Env.topVars, ScopeStack.top?, hst]

theorem S.bind_ok_eq {α β : Type} {x : S α} {k : α → S β} {a : α} (h : x σ = (.ok a, σ1)) : (x >>= k) σ = k a σ1 := by
  show S.bind x k σ = _
  unfold S.bind
  rw [h]

theorem S.bind_pure_eq {α : Type} (x : S α) : (x >>= fun r => pure r) = x := by
  funext σ
  show S.bind x _ σ = _
  unfold S.bind
  cases x σ with
  | mk o σ => cases o <;> rfl

/-- The result of a function. -/
theorem Sim.result {x : X} {e : S Value} {ρ : SEnv} {Q : Value → State → Sig → VM → Prop} {J : Jump → State → VM → Prop}
    (h : Sim N True x m (e σ) Q J)
    (hj : ∀ ρ' v σ m, Src.captured σ ρ ρ' = false → J (.ret ρ' v) σ m → Q v σ .stop m) :
    Sim N True x m (Src.result ρ e σ) Q NoJump := by
  rcases h with h | h
  · exact .inl h
  · unfold Src.result
    cases hx : e σ with
    | mk o σ1 =>
      rw [hx] at h
      cases o with
      | ok r => exact .inr h
      | jump j =>
        cases j with
        | ret ρ' v =>
          simp only
          split
          · exact .stuck
          · rename_i hc
            obtain ⟨m1, h1, h2⟩ := h trivial
            exact .inr ⟨.stop, m1, h1, hj _ _ _ _ (by simpa using hc) h2⟩
        | bad e => obtain ⟨m1, h1, -⟩ := h trivial; exact .inr ⟨m1, h1⟩
        | brk | cont | exit => exact .stuck
      | stuck => exact .stuck
      | _ => exact .inr h

/-- The end of a scope of which nothing is captured. -/
theorem closeCode_none {vars : List ScopeVar} (h : ∀ v ∈ vars, v.isCaptured = false) : DoesX w C.f C.ups (closeCode vars) m (· = m) := by
  induction vars with
  | nil => exact .nop rfl
  | cons v vs ih =>
    refine (ih fun x hx => h x (.tail _ hx)).seq ?_
    rintro m1 rfl
    rw [h v (.head _)]
    exact .nop rfl

/-- The name of a class outside of the function, after the variables of the function ended. -/
theorem outer_sim {x : String} {i : Instr} (hi : IdentGen g x i g') (good : Good C g) (hd : Dest C K g') (hm : Matches g W.seg)
    (hx : W.seg.lookup x = none) {K' : Nat → Prop} (hst : St C K' { W1 with seg := [] } ts σ m) :
    SimV (istep w 0 C.f C.ups i) m (Src.readVar C.out x σ)
      (Norm fun v σ' m' => σ' = σ ∧ St C K' { W1 with seg := [] } (v :: ts) σ m') := by
  unfold Src.readVar
  cases hi with
  | «local» hv _ =>
    obtain ⟨l, h1, h2⟩ := hm.lookup_some good.inv hv
    rw [hx] at h1
    cases h1
  | captured hv hr =>
    obtain ⟨l, h1, h2, h3⟩ := good.captured hd hm hv hr (stepRel.refl _)
    rw [List.lookup_append, hx] at h1
    rw [show C.out.lookup x = some l from h1]
    exact hst.loadUpvalueOp h2 h3
  | global hv hr =>
    have : C.out.lookup x = none := by
      cases g with
      | nil => exact absurd rfl good.ne
      | cons cur rest => exact resolve_loc_none x cur rest C.segs good.outer hr
    rw [this]
    exact hst.loadGlobalOp x

/-- After a function. -/
def Gone (C : Cx) (W : Wd) (n : Nat) (v : Value) (σ' : State) (s : Sig) (m' : VM) : Prop :=
  s = .stop ∧ ∃ W', W.Le n W' ∧ W'.seg = [] ∧ n ≤ σ'.store.length ∧ St C (fun _ => False) W' [v] σ' m'

/-- The end of the body of a function. -/
theorem end_sim {k : FnKind} {cl : Src.Closure} {vars : List ScopeVar} {v : Value} {fn : Ctx}
    (he : FnEndGen g k c3 g5) (hp : g5.popScope = some (vars, fn :: g'))
    (hrole : C.role = cl.role) (hk : (∀ j, k ≠ .constructor j) ↔ cl.role ≠ .constructor) (good : Good C g) (hout : cl.env = C.out)
    (hd : Dest C (inner (fun _ => False) 0 g5) g5) (hdf : Dest C (fun _ => False) (fn :: g')) (hnov : Env.vars (fn :: g') = [])
    (hno : Src.noFn cl.body = true → ∀ s, ¬ g.Flagged s) (hm : Matches g W1.seg) (hw : W.seg = [])
    (hle : W.Le n W1) (hn : n ≤ σ.store.length)
    (h : St C (inner (fun _ => False) 0 g5) W1 [v] σ m) :
    Sim N True (exec w C.f C.ups (.block [closeCode vars, c3])) m (Src.finish w cl v (W1.seg ++ C.out) σ) (Gone C W n) NoJump := by
  have htake : (W1.seg ++ C.out).take ((W1.seg ++ C.out).length - cl.env.length) = W1.seg := by
    rw [hout, List.length_append, Nat.add_sub_cancel, List.take_left']
    rfl
  have hle' : W.Le n { W1 with seg := [] } := by
    have := hle.drop
    rw [hw] at this
    exact this
  unfold Src.finish
  cases he with
  | @constructor j x hl =>
    have hr : cl.role = .constructor := by
      cases hr : cl.role with
      | constructor => rfl
      | plain => exact absurd rfl ((hk.2 (by rw [hr]; simp)) j)
    rw [hr]
    dsimp only
    refine Sim.guard fun hnf => ?_
    obtain ⟨l, h1, h2⟩ := hm.lookup_some good.inv hl
    rw [htake, show W1.seg.lookup "self" = some l from h1]
    dsimp only
    rw [← S.bind_pure_eq (Src.readLoc l)]
    refine Sim.steps (closeCode_none (m := m) fun y hy => ?_) ?_
    · cases hc : y.isCaptured with
      | false => rfl
      | true => exact absurd ((popScope_flagged hp y.slot).2 (.inl ⟨y, hy, rfl, hc⟩)) (hno hnf _)
    · rintro _ rfl
      refine Sim.last ?_
      refine Sim.step h.popOp fun m1 h3 => ?_
      have h256 : x.slot < 256 := by
        have k1 := slotLoc_lt h2
        have k2 := hd.slots
        have k3 := Env.vars_le good.inv
        have k4 := hm.length
        omega
      have hfree : ∀ {ts m}, St C (inner (fun _ => False) 0 g) W1 ts σ m → St C (fun _ => False) { W1 with seg := [] } ts σ m := by
        intro ts m h
        refine h.leave (ext := W1.seg) (seg := []) (by simp) ?_ (by intro s hs; simp at hs)
        intro y l hl
        obtain ⟨s, hs⟩ := slotLoc_of_mem hl
        cases hmu : W1.mu l with
        | none => rfl
        | some a =>
          rcases h.marked s l hs (by rw [hmu]; simp) with h | h
          · exact h.2.elim
          · exact absurd h.2 (hno hnf s)
      refine Sim.seqI (k := fun v => pure v) (r := fun v => v) (h3.loadLocalOp h2 h256) fun u m2 h4 => ?_
      refine Sim.last (.instr (.ok (h4.returnOp.mono ?_)))
      rintro s m3 ⟨rfl, h5⟩
      exact ⟨rfl, _, hle', rfl, hn, hfree h5⟩
  | other hk2 hr =>
    have hnc := hk.1 hk2
    refine Sim.steps (St.endScope (K := fun _ => False) (W := { W with seg := [] }) (W1 := W1) (ts := [v]) (σ := σ) hp ((hr.rel stepRel).2.1 good.inv).1 hdf (hm.congr hr.view) (by rw [hnov]) (by
        rw [← hw]; exact hle) (by rw [hnov]; exact h)) fun m5 h5 => ?_
    refine Sim.last ?_
    obtain ⟨kk, k1, k2⟩ := good.kind
    cases hr with
    | plain hkk hrt =>
      cases hkk.symm.trans k1
      have hr : cl.role = .plain none := by
        rw [← hrole, ← k2]
        rw [← hrole, ← k2] at hnc
        cases kk <;> first | exact absurd rfl hnc | (show Src.Role.plain _ = _; rw [hrt])
      rw [hr]
      refine .instr (.ok (h5.returnOp.mono ?_))
      rintro s m3 ⟨rfl, h6⟩
      exact ⟨rfl, _, hle', rfl, hn, h6⟩
    | @typed _ _ t i hkk hrt hi =>
      cases hkk.symm.trans k1
      have hr : cl.role = .plain (some t) := by
        rw [← hrole, ← k2]
        rw [← hrole, ← k2] at hnc
        cases kk <;> first | exact absurd rfl hnc | (show Src.Role.plain _ = _; rw [hrt])
      rw [hr, htake, hout]
      dsimp only
      refine Sim.guard fun hown => ?_
      refine Sim.thenE (P := fun _ σ' s m' => s = .stop ∧ σ' = σ ∧ St C (fun _ => False) { W1 with seg := [] } [v] σ m') ?_ ?_
      · refine Sim.seqI (r := fun v => v) (outer_sim hi good hd hm (by simpa using hown) h5) fun c m1 h3 => ?_
        exact .instr (h3.checkResultOp _)
      · rintro _ _ s m1 ⟨rfl, rfl, h6⟩
        exact ⟨v, _, rfl, rfl, _, hle', rfl, hn, h6⟩

theorem ReturnGen.topVars (h : ReturnGen g c g') : g'.topVars = g.topVars := by
  cases h with
  | plain => rfl
  | typed _ _ hi =>
    cases hi with
    | «local» => rfl
    | global => rfl
    | captured _ hr =>
      obtain ⟨a, r, a', r', rfl, rfl, -, h1, -⟩ := resolve_outer _ _ _ _ hr
      simp only [Env.topVars, h1]

theorem FnEndGen.topVars {k : FnKind} (h : FnEndGen g k c g') : g'.topVars = g.topVars := by
  cases h with
  | constructor => rfl
  | other _ h => exact ReturnGen.topVars h

/-- The body of a function: its value is on the stack and its variables are gone. -/
theorem body_sim (hc : CallSpec w N call) (hload : LoadSpec w N call) {fn : Ctx} {bc : Bytecode} {segs : List SEnv} {k : FnKind} {args : List FnArg}
    {ret : Option TypeAnn} {body : Expr}
    (gen : Gen (g.pushFn (fnCompilerKind k ret)) (.fnBody k args (bodyExprs body) (bodyTrailing body)) c (fn :: g'))
    (code : FnCode fn c bc) (fits : Fits bc) (inv : StackInv g) (flags : FlagInv g) (outer : OuterMatches g segs)
    (hsegs : C.segs = segs) (hrole : C.role = (⟨formOf k, args, ret, body, segs.flatten⟩ : Src.Closure).role)
    (hlocs : ∀ i d l, fn.upvalues[i]? = some d → locOf g' segs d = some l → C.locs i = some l)
    (room : C.f.start + bc.slotCount ≤ C.f.stop) (hw : W.seg = []) {self : Value} {vs : List Value}
    (hself : VRel W.kap self (m.mem C.f.start))
    (hvs : ∀ (i : Nat) v, vs[i]? = some v → VRel W.kap v (m.mem (C.f.start + 1 + i)))
    (h : St C (fun _ => False) W [] σ m) :
    Sim N True (exec w C.f C.ups c) m (Src.invoke w call N ⟨formOf k, args, ret, body, segs.flatten⟩ self vs σ)
      (Gone C W σ.store.length) NoJump := by
  have inv0 : StackInv (g.pushFn (fnCompilerKind k ret)) := ⟨List.Pairwise.nil, scopeInv_new _, by simp, inv⟩
  have good0 : Good C (g.pushFn (fnCompilerKind k ret)) :=
    ⟨inv0, ⟨by simp, flags⟩, by rw [hsegs]; exact outer, _, rfl, by rw [hrole]; exact roleOf_fn k ret args body _⟩
  have gen' := gen
  have hout : C.out = segs.flatten := by unfold Cx.out; rw [hsegs]
  cases gen with
  | @fnBody _ g1 g2 g3 g4 g5 _ _ _ _ _ c1 c2 c3 vars hsup h0 ha hs hseq hv he hp =>
  simp only [Option.map_eq_some_iff] at hp
  obtain ⟨⟨vars', gf⟩, hp, hgf⟩ := hp
  simp only at hgf
  subst hgf
  have good1 := good0.step (stepRel.pushScope h0)
  have good2 := good1.step (ha.rel stepRel)
  have good3 := good2.step (stepRel.scanDecls hs)
  have good4 := good3.gen hseq
  have hvars : vars = vars' := hv.trans ((FnEndGen.topVars he).symm.trans (popScope_topVars hp))
  subst hvars
  have good5 := good4.step (he.rel stepRel)
  have hw1 : Widens g1 g5 := widensRel.trans (ha.srel widensRel.toScopeRel)
    (widensRel.trans (widensRel.scanDecls hs) (widensRel.trans hseq.widens (he.srel widensRel.toScopeRel)))
  have hview : Env.view (fn :: g') = Env.view (g.pushFn (fnCompilerKind k ret)) := (Widens.scope h0 hw1 hp inv0).2.1
  have hnov : Env.vars (fn :: g') = [] := by rw [Env.vars_view, hview, ← Env.vars_view]; rfl
  have invf := (gen'.rel slotRel inv0).1
  have hdf : Dest C (fun _ => False) (fn :: g') := by
    cases fits with
    | mk _ hslots hcapt _ =>
    refine ⟨?_, ?_, ?_, ?_, ?_⟩
    · rintro _ _ i d l ⟨⟩ h1 h2
      rw [hsegs] at h2
      exact hlocs i d l h1 h2
    · intro s hs
      have := Env.flagged_lt invf hs
      rw [hnov] at this
      simp at this
    · show fn.scopes.slotCount ≤ 256
      rw [← code.slots]; exact hslots
    · rintro _ _ ⟨⟩
      rw [← code.captured]; exact hcapt
    · show C.f.start + fn.scopes.slotCount ≤ C.f.stop
      rw [← code.slots]; exact room
  have hd5 := hdf.inner hp good5.inv
  rw [hnov] at hd5
  change Dest C (inner (fun _ => False) 0 g5) g5 at hd5
  have hd4 : Dest C (inner (fun _ => False) 0 g5) g4 := hd5.back (he.rel stepRel) good4.inv fun s hf =>
    hd5.flags s ((he.srel widensRel.toScopeRel good4.inv).2.2 s hf)
  have hd3 := hd4.gen hseq good3.inv
  have hd2 : Dest C (inner (fun _ => False) 0 g5) g2 := hd3.back (stepRel.scanDecls hs) good2.inv fun s hf =>
    hd3.flags s ((widensRel.scanDecls hs good2.inv).2.2 s hf)
  have hm1 : Matches g1 W.seg := by
    rw [hw]
    refine matches_push ?_ h0
    rfl
  have hst0 : St C (inner (fun _ => False) 0 g5) W [] σ m := h.weaken fun _ _ h => h.elim
  have depth3 : g3.callDepth = some 0 := by
    rw [depth_shape (scanDecls_shape hs), depth_shape ha.shape, pushScope_depth h0]
  have hfit : ∀ b, c2.HasFn b → Fits b := by
    intro b hb
    obtain ⟨nm, i, hm⟩ := (code.layout fits).fn_mem (f := b) (by simp [Code.block, Code.HasFn, hb])
    cases fits with
    | mk _ _ _ hfns => exact hfns b nm i hm
  unfold Src.invoke
  rw [bodyStmts_eq, bodyResult_eq]
  have eargs := args_sim (w := w) (N := N) (R := True) (J := NoJump) (ret := ret) (body := body) (self := self) (vs := vs) ha good1 hd2 hm1 hw hself hvs hst0
  rw [hout] at eargs
  refine Sim.seq eargs ?_
  rintro ρ2 σ2 m2 ⟨W2, rfl, l2, l3, l4, l5⟩
  obtain ⟨W3, σ3, p1, p2, p3, p4, p5⟩ := hoist_st hs good2.inv hd3 l4 l5
  have hle3 : W.Le σ.store.length W3 := l2.trans l3 p2
  have hn3 : σ.store.length ≤ σ3.store.length := by omega
  dsimp only
  rw [S.bind_ok_eq (x := Src.hoist _ _) p1]
  have hseq' : ∀ (ρ : SEnv), (do
      let ρ ← Src.evalStmts w call (⟨formOf k, args, ret, body, segs.flatten⟩ : Src.Closure).role N (bodyExprs body) ρ
      let (v, ρ) ← Src.evalOpt w call (⟨formOf k, args, ret, body, segs.flatten⟩ : Src.Closure).role N (bodyTrailing body) ρ
      Src.finish w ⟨formOf k, args, ret, body, segs.flatten⟩ v ρ) =
      (evalSeq w call C.role N (bodyExprs body) (bodyTrailing body) ρ >>= fun r => Src.finish w ⟨formOf k, args, ret, body, segs.flatten⟩ r.1 r.2) := by
    intro ρ
    unfold evalSeq
    rw [S_assoc, hrole]
  rw [hseq']
  refine Sim.result (J := Jmp C (inner (fun _ => False) 0 g5) W3 [] σ3.store.length) ?_ ?_
  · have hb : Sim N True (exec w C.f C.ups c2) m2 (evalSeq w call C.role N (bodyExprs body) (bodyTrailing body) (W3.seg ++ C.out) σ3)
        (Norm (Post C (inner (fun _ => False) 0 g5) W3 g4 [] σ3.store.length)) (Jmp C (inner (fun _ => False) 0 g5) W3 [] σ3.store.length) :=
      (show Follows w call N g3 _ c2 g4 from gen_follows hc hload hseq) depth3 (C := C) (W := W3) (ts := []) (R := True) (σ := σ3) (m := m2)
        ⟨good3, hd4, hfit, p4, p5, fun _ => ⟨rfl, by
          rw [temps_pending, scanDecls_pending hs, ha.pending, pushScope_pending h0]; rfl⟩⟩
    refine Sim.seq hb ?_
    rintro ⟨v, ρ⟩ σ4 m4 ⟨W4, q1, q2, rfl, q4, q5⟩
    have hle4 := hle3.trans hn3 q1
    refine (end_sim (cl := ⟨formOf k, args, ret, body, segs.flatten⟩) he hp hrole ?_ good4 hout.symm hd5 hdf hnov ?_ q4 hw hle4
      (Nat.le_trans hn3 q2) q5).mono (fun _ _ _ _ h => h) id fun _ _ _ h => h.elim
    · cases k <;> simp [Src.Closure.role, formOf]
    · intro hnf s hs4
      have hn : (Node.seq (bodyExprs body) (bodyTrailing body)).noFn = true := by
        show (Src.noFnAny (bodyExprs body) && Src.noFnOpt (bodyTrailing body)) = true
        cases body <;> first
          | exact hnf
          | (simp only [bodyExprs, bodyTrailing, Src.noFnAny, Src.noFnOpt, Bool.true_and]; exact hnf)
      have h1 := hseq.unmarked hn s hs4
      have h2 := unmarkedRel.scanDecls hs s h1
      have h3 := ha.srel unmarkedRel s h2
      have h4 := (pushScope_flagged h0 s).1 h3
      have := Env.flagged_lt inv0 h4
      exact absurd this (by show ¬ s < 0; omega)
  · rintro ρ' v σ4 m4 hcap ⟨W4, q1, q2, rfl, q4⟩
    have hle4 := hle3.trans hn3 q1
    have hu := q4.rest.uncaptured (ext := W4.seg) (ρ := C.out) rfl (by rw [hout]; rw [hout] at hcap; exact hcap)
    refine ⟨rfl, { W4 with seg := [] }, ?_, rfl, Nat.le_trans hn3 q2, q4.leave (ext := W4.seg) (seg := []) (by simp) hu ?_⟩
    · have := hle4.drop
      rw [hw] at this
      exact this
    · intro s hs; simp at hs

/-! ## Calls -/

/-- The slots that a call adds to those of the arguments. -/
def reservedFor (argc : Nat) (bc : Bytecode) : Nat := if argc < bc.slotCount then bc.slotCount - argc else bc.slotCount

/-- The frame of a call. -/
def frameOf (argc : Nat) (bc : Bytecode) (m : VM) : Frame := ⟨m.ptr - (argc + 1), m.ptr + reservedFor argc bc⟩

/-- The machine at the start of a called function. -/
def entered (argc : Nat) (bc : Bytecode) (receiver : Option Value) (m : VM) : VM :=
  { m with
    mem := match receiver with
      | some r => upd m.mem (m.ptr - (argc + 1)) r
      | none => m.mem
    ptr := m.ptr + reservedFor argc bc }

/-- The end of a called function. -/
def finishCall (w : World) (f : Frame) (depth : Nat) (r : Sig × Nat) : V Unit := do
  endRun r
  let v ← finishExecute w depth
  releaseFrame w f
  Dice.push v

theorem bind_at {α β : Type} {x y : V α} {f : α → V β} (h : x m = y m1) : (x >>= f) m = (y >>= f) m1 := by
  show V.bind x f m = V.bind y f m1
  unfold V.bind
  rw [h]

/-- The call of a compiled function. -/
theorem callScript_cases {argc : Nat} {bc : Bytecode} {receiver : Option Value} {ups : Option (List Nat)}
    (hp : argc + 1 ≤ m.ptr) :
    (∃ s m', maxStack ≤ m'.ptr ∧ ∀ n, callScript w (n + 1) argc receiver bc ups m = (.panic s, m')) ∨
    ∀ n, callScript w (n + 1) argc receiver bc ups m =
      (execute w n bc (frameOf argc bc m) ups >>= fun v => releaseFrame w (frameOf argc bc m) >>= fun _ => pure v)
        (entered argc bc receiver m) := by
  by_cases ho : w.debug = true ∧ ¬ m.ptr + reservedFor argc bc < maxStack
  · refine .inl ⟨"Stack Overflowed", { m with ptr := m.ptr + reservedFor argc bc }, by show maxStack ≤ m.ptr + _; omega, fun n => ?_⟩
    unfold callScript
    exact bind_panic (by unfold reserveSlots; exact if_pos ho)
  · have h1 : reserveSlots w (reservedFor argc bc) m = (.ok ⟨m.ptr, m.ptr + reservedFor argc bc⟩, { m with ptr := m.ptr + reservedFor argc bc }) := by
      unfold reserveSlots; exact if_neg ho
    have h2 : ∀ n, callScript w (n + 1) argc receiver bc ups m =
        (setReceiver (frameOf argc bc m) receiver >>= fun _ => execute w n bc (frameOf argc bc m) ups >>= fun v =>
          releaseFrame w (frameOf argc bc m) >>= fun _ => pure v) { m with ptr := m.ptr + reservedFor argc bc } := by
      intro n
      rw [callScript]
      refine (bind_ok h1).trans ?_
      rw [if_neg (by show ¬ m.ptr < argc + 1; omega)]
      rfl
    cases receiver with
    | none => exact .inr fun n => (h2 n).trans rfl
    | some r =>
      by_cases hs : m.ptr + reservedFor argc bc ≤ maxStack
      · refine .inr fun n => (h2 n).trans (bind_ok (a := ()) ?_)
        exact if_pos ⟨hs, by unfold frameOf; show m.ptr - (argc + 1) + 0 < m.ptr + _; omega⟩
      · refine .inl ⟨"index out of bounds", { m with ptr := m.ptr + reservedFor argc bc }, by show maxStack ≤ m.ptr + _; omega, fun n => ?_⟩
        refine (h2 n).trans (bind_panic ?_)
        exact if_neg fun h => hs h.1

/-- The call of a compiled function, in terms of its code. -/
theorem call_cases {argc : Nat} {bc : Bytecode} {receiver : Option Value} {ups : Option (List Nat)} {u : Value}
    (hp : argc + 1 ≤ m.ptr) (hpk : peek argc m = (.ok u, m))
    (hu : (∃ name id us, callTarget u = (.fnClosure bc name id us, receiver) ∧ ups = some us) ∨
      ∃ name id, callTarget u = (.fnScript bc name id, receiver) ∧ ups = none)
    (hrun : ∀ n m1, loop w n bc (frameOf argc bc m) ups 0 m1 = (exec w (frameOf argc bc m) ups c n >>= endRun) m1) :
    OverX (callX w argc) m ∨ (∀ n, n < 3 → (callX w argc n m).1 = .timeout) ∧
    ∀ n, callX w argc (n + 3) m = (exec w (frameOf argc bc m) ups c n >>= fun r =>
      finishCall w (frameOf argc bc m) (m.ptr + reservedFor argc bc) r >>= fun _ => pure (.normal, n + 3)) (entered argc bc receiver m) := by
  have h0 : ∀ n, callX w argc (n + 1) m = ((callScript w n argc receiver bc ups >>= push) >>= fun _ => pure (.normal, n + 1)) m := by
    intro n
    unfold callX
    refine bind_at ?_
    rw [callFn]
    refine (bind_ok hpk).trans ?_
    rcases hu with ⟨name, id, us, h1, rfl⟩ | ⟨name, id, h1, rfl⟩ <;> rw [h1]
  rcases callScript_cases (w := w) (argc := argc) (bc := bc) (receiver := receiver) (ups := ups) hp with ⟨s, m', h1, h2⟩ | h1
  · refine .inl ⟨s, m', ⟨2, ?_⟩, h1⟩
    rw [h0 1, bind_panic (bind_panic (h2 0))]
    exact ⟨rfl, rfl⟩
  · refine .inr ⟨?_, ?_⟩
    · intro n hn
      match n, hn with
      | 0, _ =>
        unfold callX
        rw [callFn, bind_timeout (x := V.timeout) rfl]
      | 1, _ =>
        rw [h0 0, bind_timeout (bind_timeout (x := callScript w 0 argc receiver bc ups) (m' := m) (by rw [callScript]; rfl))]
      | 2, _ =>
        rw [h0 1]
        rw [bind_timeout (bind_timeout ((h1 0).trans (bind_timeout (m' := entered argc bc receiver m) (by rw [execute]; rfl))))]
    · intro n
      rw [h0 (n + 2), bind_assoc, bind_at (h1 (n + 1)), bind_assoc, ← bind_at (y := exec w (frameOf argc bc m) ups c n) rfl]
      rw [execute, bind_assoc]
      refine (bind_ok (x := V.get) rfl).trans ?_
      rw [bind_assoc, bind_at (hrun n _), bind_assoc]
      simp only [finishCall, bind_assoc, pure_bind]
      rfl

/-- The variables of a function that is entered. -/
def calleeCx (C : Cx) (W : Wd) (m : VM) (f : Frame) (ups : Option (List Nat)) (segs : List SEnv) (locs : Nat → Option Nat)
    (role : Src.Role) : Cx :=
  ⟨f, ups, C.lam W.seg, m.mem, segs, locs, role⟩

theorem callee_lam {f : Frame} {ups : Option (List Nat)} {segs : List SEnv} {locs : Nat → Option Nat} {role : Src.Role} (h : St C K W ts σ m)
    (hf : C.f.stop ≤ f.start) : (calleeCx C W m f ups segs locs role).lam [] = C.lam W.seg := by
  funext p
  by_cases hp : p < f.start
  · unfold Cx.lam
    rw [if_pos (show p < (calleeCx C W m f ups segs locs role).f.start from hp)]
    rfl
  · have : C.lam W.seg p = none := by
      cases hq : C.lam W.seg p with
      | none => rfl
      | some l => have := (h.lam_lt hq).2; omega
    rw [this]
    unfold Cx.lam
    rw [if_neg (show ¬ p < (calleeCx C W m f ups segs locs role).f.start from hp)]
    rfl

/-- The start of a function. -/
theorem St.enter {f : Frame} {ups : Option (List Nat)} {segs : List SEnv} {locs : Nat → Option Nat} {role : Src.Role} {mem : Nat → Value}
    (h : St C K W ts σ m) (hf : C.f.stop ≤ f.start) (hw : f.start ≤ f.stop) (hm : ∀ p, p < f.start → mem p = m.mem p)
    (hu : ∀ i l, locs i = some l → ∃ us a, ups = some us ∧ us[i]? = some a ∧ W.mu l = some a) :
    St (calleeCx C W m f ups segs locs role) (fun _ => False) { W with seg := [] } [] σ { m with mem := mem, ptr := f.stop } := by
  refine ⟨?_, ⟨hu, fun p hp _ => hm p hp, .nil, fun h => absurd rfl h, h.rest.capt, hw⟩, ?_, hw⟩
  · show Inv ((calleeCx C W m f ups segs locs role).lam []) _ _ _ _
    rw [callee_lam h hf]
    exact h.inv.scratch _ fun p l hp => hm p (by have := (h.lam_lt hp).2; omega)
  · intro s l hs _
    simp [slotLoc] at hs

/-- The end of a function. -/
theorem St.resume {f : Frame} {ups : Option (List Nat)} {segs : List SEnv} {locs : Nat → Option Nat} {role : Src.Role} {mem : Nat → Value}
    {ts0 : List Value} {m' : VM} {v : Value} {W' : Wd} {σ' : State}
    (h : St C K W ts0 σ m) (ht : Temps W.kap m.mem C.f.stop ts f.start) (hf : C.f.stop ≤ f.start)
    (hle : Wd.Le σ.store.length { W with seg := [] } W') (hseg : W'.seg = [])
    (hn : σ.store.length ≤ σ'.store.length) (h' : St (calleeCx C W m f ups segs locs role) (fun _ => False) W' [v] σ' m')
    (hm : ∀ p, p < f.start → mem p = m'.mem p) (hv : VRel W'.kap v (mem f.start)) :
    Called C K W ts σ.store.length v σ' { m' with mem := mem, ptr := f.start + 1 } := by
  have old : ∀ l, l < σ.store.length → W.mu l = none → W'.mu l = none := by
    intro l hl h0
    cases hc : W'.mu l with
    | none => rfl
    | some a =>
      obtain ⟨s, hs⟩ := hle.fresh l hl h0 (by rw [hc]; simp)
      simp [slotLoc] at hs
  have hinv := h'.inv
  rw [hseg, callee_lam h hf] at hinv
  have hlow : ∀ p, p < f.start → C.lam W.seg p = none → m'.mem p = m.mem p := fun p hp h0 => h'.rest.low p hp h0
  have hptr := h'.ptr_eq
  have hroom := h'.rest.room (by simp)
  have hwide : f.start ≤ f.stop := h'.rest.wide
  have hst : (calleeCx C W m f ups segs locs role).f.stop = f.stop := rfl
  simp only [List.length_cons, List.length_nil, hst] at hptr
  refine ⟨{ W' with seg := W.seg }, ⟨hle.mu, hle.kap, ⟨[], rfl, by simp⟩, ?_⟩, rfl, hn, ?_, old⟩
  · intro l hl h0 hne
    exact absurd (old l hl h0) hne
  · refine ⟨?_, ⟨?_, ?_, ?_, ?_, h'.rest.capt, h.rest.wide⟩, ?_, h.fits⟩
    · exact hinv.scratch _ fun p l hp => hm p (by have := (h.lam_lt hp).2; omega)
    · intro i l hl
      obtain ⟨us, a, e1, e2, e3⟩ := h.rest.ups i l hl
      exact ⟨us, a, e1, e2, hle.mu l a e3⟩
    · intro p hp h0
      have hlt : p < f.start := by have := h.rest.wide; omega
      show mem p = _
      rw [hm p hlt, hlow p hlt (by unfold Cx.lam; rw [if_pos hp]; exact h0), h.rest.low p hp h0]
    · refine .cons hv (ht.mono hle.kap fun p h1 h2 => ?_)
      show mem p = _
      rw [hm p h2]
      refine hlow p h2 ?_
      cases hq : C.lam W.seg p with
      | none => rfl
      | some l => have := (h.lam_lt hq).2; omega
    · intro _
      show f.start + 1 ≤ maxStack
      omega
    · intro s l hs hne
      refine h.marked s l hs ?_
      intro h0
      exact hne (old l (h.inv.bound _ _ (C.lam_slot hs)) h0)

/-- The machine at the end of a function. -/
theorem finish_ok {f : Frame} {depth : Nat} {u : Value} (hp : m.ptr = f.stop + 1) (hd : depth = f.stop) (hr : m.ptr ≤ maxStack)
    (hw : f.start ≤ f.stop) (hu : m.mem f.stop = u) :
    finishExecute w depth m = (.ok u, m.drop) ∧
      releaseFrame w f m.drop = (.ok (), { m with mem := memClear m.drop.mem f.start f.stop, ptr := f.start }) := by
  have h1 : finishExecute w depth m = (.ok u, m.drop) := by
    unfold finishExecute
    refine (bind_ok (x := V.get) rfl).trans ?_
    rw [if_neg (by omega)]
    exact pop_top ⟨by omega, hr, by rw [← hu, hp]; rfl⟩
  have h2 : releaseFrame w f m.drop = (.ok (), { m with mem := memClear m.drop.mem f.start f.stop, ptr := f.start }) := by
    unfold releaseFrame
    have hd : m.drop.ptr = f.stop := by show m.ptr - 1 = _; omega
    rw [if_pos ⟨hw, by omega⟩, if_neg (by rw [hd]; omega)]
    have e : m.drop.ptr - (f.stop - f.start) = f.start := by rw [hd]; omega
    simp only [e]
    rw [if_neg (by omega)]
    rfl
  exact ⟨h1, h2⟩

/-- The machine after a function. -/
theorem finishCall_ok {f : Frame} {depth : Nat} {r : Sig × Nat} (he : endRun r = pure ()) {u : Value} (hp : m.ptr = f.stop + 1) (hd : depth = f.stop) (hr : m.ptr ≤ maxStack)
    (hw : f.start ≤ f.stop) (hu : m.mem f.stop = u) :
    ∃ mem, finishCall w f depth r m = (.ok (), { m with mem := mem, ptr := f.start + 1 }) ∧
      (∀ p, p < f.start → mem p = m.mem p) ∧ mem f.start = u := by
  obtain ⟨h1, h2⟩ := finish_ok (w := w) hp hd hr hw hu
  refine ⟨upd (memClear m.drop.mem f.start f.stop) f.start u, ?_, ?_, ?_⟩
  · unfold finishCall
    refine (bind_ok (x := endRun r) (by rw [he]; rfl)).trans ((bind_ok h1).trans ((bind_ok h2).trans ?_))
    rw [push_room (by show f.start < maxStack; omega)]
    rfl
  · intro p hp
    rw [upd_other (by omega)]
    unfold memClear
    rw [if_neg (by omega)]
    show upd m.mem (m.ptr - 1) .null p = _
    rw [upd_other (by omega)]
  · rw [upd_same]

/-- The call of a function. -/
theorem fn_call (hc : CallSpec w N call) (hload : LoadSpec w N call) {cl : Src.Closure} {u v : Value} {f : Value} {vs : List Value} {receiver receiver' : Option Value}
    (h : St C K W (vs.reverse ++ f :: ts) σ m) (hm : m.mem (m.ptr - vs.length - 1) = u)
    (hfn : FnRel W.mu cl v) (hu : callTarget u = (v, receiver')) (hself : VRel W.kap (receiver.getD f) (receiver'.getD u)) :
    Sim (N + 1) True (callX w vs.length) m (Src.invoke w call N cl (receiver.getD f) vs σ)
      (Norm (Called C K W ts σ.store.length)) NoJump := by
  have hptr := h.ptr_eq
  simp only [List.length_append, List.length_reverse, List.length_cons] at hptr
  have hroom := h.rest.room (by simp)
  have hpk : peek vs.length m = (.ok u, m) := by
    unfold Dice.peek
    rw [if_pos (by omega), hm]
  cases hfn with
  | @mk g g' fn c bc name id segs k args ret body v gen code fits inv flags outer val =>
  obtain ⟨ups, locs, htarget, hlocs, hups⟩ : ∃ (ups : Option (List Nat)) (locs : Nat → Option Nat),
      ((∃ name id us, callTarget u = (.fnClosure bc name id us, receiver') ∧ ups = some us) ∨
        ∃ name id, callTarget u = (.fnScript bc name id, receiver') ∧ ups = none) ∧
      (∀ i d l, fn.upvalues[i]? = some d → locOf g' segs d = some l → locs i = some l) ∧
      ∀ i l, locs i = some l → ∃ us a, ups = some us ∧ us[i]? = some a ∧ W.mu l = some a := by
    rcases val with ⟨h0, rfl⟩ | ⟨us, h0, rfl, h1⟩
    · refine ⟨none, fun _ => none, .inr ⟨name, id, hu, rfl⟩, ?_, fun _ _ h => by cases h⟩
      intro i d l hd
      rw [h0] at hd
      cases hd
    · refine ⟨some us, fun i => (fn.upvalues[i]?).bind (locOf g' segs), .inl ⟨name, id, us, hu, rfl⟩, ?_, ?_⟩
      · intro i d l hd hl
        simp only [hd, Option.bind_some, hl]
      · intro i l hl
        cases hd : fn.upvalues[i]? with
        | none => simp [hd] at hl
        | some d =>
          obtain ⟨l', a, e1, e2, e3⟩ := h1 i d hd
          simp only [hd, Option.bind_some] at hl
          rw [hl] at e1
          cases e1
          exact ⟨us, a, rfl, e2, e3⟩
  rcases call_cases (w := w) (c := c) (argc := vs.length) (receiver := receiver') (ups := ups) (by omega) hpk htarget
    (fun n m1 => by rw [fn_run gen code fits]) with hov | ⟨hlate, hcall⟩
  · exact .inl hov
  have hres : bc.slotCount ≤ vs.length + 1 + reservedFor vs.length bc := by
    unfold reservedFor
    split <;> omega
  have hstart : (frameOf vs.length bc m).start = m.ptr - (vs.length + 1) := rfl
  have hstop : (frameOf vs.length bc m).stop = m.ptr + reservedFor vs.length bc := rfl
  have hent : ∀ p, p ≠ m.ptr - (vs.length + 1) → (entered vs.length bc receiver' m).mem p = m.mem p := by
    intro p hp
    cases receiver' with
    | none => rfl
    | some r => exact upd_other hp
  have hst : St (calleeCx C W m (frameOf vs.length bc m) ups segs locs (⟨formOf k, args, ret, body, segs.flatten⟩ : Src.Closure).role) (fun _ => False) { W with seg := [] } [] σ (entered vs.length bc receiver' m) :=
    St.enter h (by rw [hstart]; omega) (by rw [hstart, hstop]; omega) (fun p hp => hent p (by omega)) hups
  have hbody := body_sim (C := calleeCx C W m (frameOf vs.length bc m) ups segs locs (⟨formOf k, args, ret, body, segs.flatten⟩ : Src.Closure).role) (self := receiver.getD f) (vs := vs) hc hload gen code fits inv flags outer
    rfl rfl hlocs (by show m.ptr - (vs.length + 1) + _ ≤ m.ptr + _; omega) rfl
    (by
      show VRel W.kap _ ((entered vs.length bc receiver' m).mem (m.ptr - (vs.length + 1)))
      cases receiver' with
      | none =>
        show VRel W.kap _ (m.mem (m.ptr - (vs.length + 1)))
        rw [show m.ptr - (vs.length + 1) = m.ptr - vs.length - 1 by omega, hm]
        exact hself
      | some r =>
        show VRel W.kap _ (upd _ _ _ _)
        rw [upd_same]
        exact hself)
    (by
      intro i v hi
      show VRel W.kap _ ((entered vs.length bc receiver' m).mem (m.ptr - (vs.length + 1) + 1 + i))
      have hlt : i < vs.length := (List.getElem?_eq_some_iff.1 hi).1
      rw [hent _ (by omega)]
      have := (h.rest.temps.get (i := vs.length - 1 - i) (v := v) (by
        rw [List.getElem?_append_left (by simp; omega), List.getElem?_reverse (by omega), ← hi]
        congr 1; omega)).2
      rw [show m.ptr - (vs.length - 1 - i) - 1 = m.ptr - (vs.length + 1) + 1 + i by omega] at this
      exact this) hst
  have ends : ∀ {r m'}, Ends (exec w (frameOf vs.length bc m) ups c) (entered vs.length bc receiver' m) r m' →
      (∀ s, r ≠ .done s) → Ends (callX w vs.length) m r m' := by
    rintro r m' ⟨n, h1, h2⟩ hd
    refine ⟨n + 3, ?_⟩
    rw [hcall]
    cases hx : exec w (frameOf vs.length bc m) ups c n (entered vs.length bc receiver' m) with
    | mk o m2 =>
      rw [hx] at h1 h2
      simp only at h2
      subst h2
      cases o with
      | ok a => cases h1; exact absurd rfl (hd _)
      | err e => rw [bind_err hx]; exact ⟨h1, rfl⟩
      | panic s => rw [bind_panic hx]; exact ⟨h1, rfl⟩
      | timeout => cases h1
  rcases hbody with ⟨s, m', h1, h2⟩ | hbody
  · exact .inl ⟨s, m', ends h1 (by simp), h2⟩
  · refine .inr ?_
    cases ho : Src.invoke w call N ⟨formOf k, args, ret, body, segs.flatten⟩ (receiver.getD f) vs σ with
    | mk o σ' =>
      rw [ho] at hbody
      cases o with
      | ok r =>
        obtain ⟨s, m', ⟨n, h1, h2⟩, rfl, W', h3, h4, h5, h6⟩ := hbody
        cases hx : exec w (frameOf vs.length bc m) ups c n (entered vs.length bc receiver' m) with
        | mk o m2 =>
          change (exec w (frameOf vs.length bc m) ups c n (entered vs.length bc receiver' m)).1.res = _ at h1
          change (exec w (frameOf vs.length bc m) ups c n (entered vs.length bc receiver' m)).2 = _ at h2
          rw [hx] at h1 h2
          simp only at h2
          subst h2
          cases o with
          | err | panic | timeout => cases h1
          | ok a =>
            obtain ⟨a, k⟩ := a
            cases h1
            have hp' := h6.ptr_eq
            obtain ⟨-, q2, -⟩ := h6.rest.temps.uncons
            obtain ⟨mem, e1, e2, e3⟩ := finishCall_ok (w := w) (f := frameOf vs.length bc m) (m := m2) (r := (.stop, k)) rfl (u := m2.mem (m.ptr + reservedFor vs.length bc)) hp' hstop.symm
              (h6.rest.room (by simp)) h6.rest.wide rfl
            refine ⟨.normal, _, ⟨n + 3, ?_⟩, rfl, St.resume (mem := mem) h ?_ ?_ h3 h4 h5 h6 e2 ?_⟩
            · rw [hcall, bind_ok hx, bind_ok e1]
              exact ⟨rfl, rfl⟩
            · have := (h.rest.temps.split (us := vs.reverse)).1.uncons.2.2
              rw [List.length_reverse] at this
              rw [hstart, show m.ptr - (vs.length + 1) = m.ptr - vs.length - 1 by omega]
              exact this
            · rw [hstart]; omega
            · rw [e3]
              rw [hp', List.length_singleton, Nat.add_sub_cancel] at q2
              exact q2
      | jump j =>
        intro hj
        obtain ⟨m', -, h2⟩ := hbody (by cases j <;> trivial)
        exact h2.elim
      | err e => obtain ⟨m', h1⟩ := hbody; exact ⟨m', ends h1 (by simp)⟩
      | abort => obtain ⟨s, m', h1⟩ := hbody; exact ⟨s, m', ends h1 (by simp)⟩
      | stuck => trivial
      | timeout =>
        intro n hn
        by_cases h3 : n < 3
        · exact hlate n h3
        · obtain ⟨k, rfl⟩ : ∃ k, n = k + 3 := ⟨n - 3, by omega⟩
          have := hbody k (by omega)
          rw [hcall]
          cases hx : exec w (frameOf vs.length bc m) ups c k (entered vs.length bc receiver' m) with
          | mk o m2 =>
            change (exec w (frameOf vs.length bc m) ups c k (entered vs.length bc receiver' m)).1 = _ at this
            rw [hx] at this
            simp only at this
            subst this
            rw [bind_timeout hx]

/-- The call of a value that cannot be called. -/
theorem no_call {argc : Nat} {P : Value → State → Sig → VM → Prop} {e : State}
    (h : ∀ n, callFn w (n + 1) argc m = (V.err .assertFunction : V Unit) m) :
    Sim N True (callX w argc) m (.err .assertFunction, e) P NoJump := by
  refine .inr ⟨m, 1, ?_⟩
  show ((callFn w 1 argc >>= _) m).1.res = _ ∧ ((callFn w 1 argc >>= _) m).2 = _
  rw [bind_err (h 0)]
  exact ⟨rfl, rfl⟩

/-- The call of a class. -/
theorem class_call (hc : CallSpec w N call) {c : Nat} {u f : Value} {r : Option Value} {vs : List Value} (hl : vs.length ≤ 255)
    (h : St C K W (vs.reverse ++ f :: ts) σ m) (hpk : peek vs.length m = (.ok u, m)) (hu : callTarget u = (.cls c, r)) :
    Sim (N + 1) True (callX w vs.length) m ((do
      let o ← Src.onHeap fun h => h.newObject c
      Src.construct call c o vs) σ) (Norm (Called C K W ts σ.store.length)) NoJump := by
  have h0 : (callX w vs.length 0 m).1 = .timeout := by
    unfold callX
    rw [callFn, bind_timeout (x := V.timeout) rfl]
  obtain ⟨h1, hp, h2⟩ := h.inv.heap.newObject c
  have key : Sim (N + 1) True (fun n => onHeap (fun h => h.newObject c) >>= fun o => ctorX w vs.length c o n) m ((do
      let o ← Src.onHeap fun h => h.newObject c
      Src.construct call c o vs) σ) (Norm (Called C K W ts σ.store.length)) NoJump := by
    refine Sim.preV (P := fun o σ' u m' => σ'.store.length = σ.store.length ∧ VRel W.kap o u ∧ St C K W (vs.reverse ++ f :: ts) σ' m') ?_ ?_
    · exact .ok (.inr ⟨_, _, rfl, rfl, (show VRel W.kap _ (m.heap.newObject c).1 from h1 ▸ .plain hp), h.data h2⟩)
    · rintro o σ1 u m1 ⟨e, ho, h3⟩
      have := St.construct hc hl h3 (c := c) ho
      rwa [e] at this
  refine Sim.less (Nat.le_succ _) (Sim.shift h0 (fun n => ?_) key)
  have : ∀ k : Nat, callX w vs.length (n + 1) m = ((onHeap (fun h => h.newObject c) >>= fun o => callCtor w n vs.length c o >>= fun v => push v >>= fun _ =>
      pure (Sig.normal, k)) >>= fun _ => pure (Sig.normal, n + 1)) m := by
    intro k
    unfold callX
    rw [callFn]
    simp only [bind_assoc, pure_bind]
    refine (bind_ok hpk).trans ?_
    simp only [hu, bind_assoc]
  rw [this n]
  show (((_ : V _) >>= _) m).1.res = ((onHeap (fun h => h.newObject c) >>= fun o => ctorX w vs.length c o n) m).1.res ∧ _ =
    ((onHeap (fun h => h.newObject c) >>= fun o => ctorX w vs.length c o n) m).2
  unfold ctorX
  cases hx : (onHeap (fun h => h.newObject c) >>= fun o => callCtor w n vs.length c o >>= fun v => push v >>= fun _ =>
      (pure (Sig.normal, n) : V (Sig × Nat))) m with
  | mk o m2 =>
    cases o with
    | ok a =>
      rw [bind_ok hx]
      have : a = (Sig.normal, n) := by
        obtain ⟨b1, m3, -, e1⟩ := bind_done hx
        obtain ⟨b2, m4, -, e2⟩ := bind_done e1
        obtain ⟨b3, m5, -, e3⟩ := bind_done e2
        cases e3
        rfl
      subst this
      exact ⟨rfl, rfl⟩
    | err e => rw [bind_err hx]; exact ⟨rfl, rfl⟩
    | panic s => rw [bind_panic hx]; exact ⟨rfl, rfl⟩
    | timeout => rw [bind_timeout hx]; exact ⟨rfl, rfl⟩

/-- The arguments of a native function. -/
def withReceiver (receiver : Option Value) (args : List Value) : List Value :=
  match receiver with
  | some r => args.set 0 r
  | none => args

theorem callNative_eq (argc : Nat) (receiver : Option Value) (i : Nat) :
    callNative w argc receiver i = popCount (argc + 1) >>= fun args => runNative w i (withReceiver receiver args) := by
  cases receiver <;> rfl

/-- The call of a native function. -/
theorem native_call {known : Src.Known} (hn : NativeRel w known) {i : Nat} {u f : Value} {receiver receiver' : Option Value}
    {vs : List Value} (h : St C K W (vs.reverse ++ f :: ts) σ m) (hpk : peek vs.length m = (.ok u, m))
    (hu : callTarget u = (.fnNative i, receiver')) (hr : ORel W.kap receiver receiver') :
    Sim (N + 1) True (callX w vs.length) m (Src.runNative w known i (receiver.getD f :: vs) σ)
      (Norm (Called C K W ts σ.store.length)) NoJump := by
  have hc : ∀ n, callX w vs.length (n + 1) m = (popCount (vs.length + 1) >>= fun args =>
      runNative w i (withReceiver receiver' args) >>= fun v => push v >>= fun _ => pure (Sig.normal, n + 1)) m := by
    intro n
    unfold callX
    rw [callFn]
    simp only [bind_assoc]
    refine (bind_ok hpk).trans ?_
    simp only [hu, callNative_eq, bind_assoc]
  have h' : St C K W ((vs.reverse ++ [f]) ++ ts) σ m := by simpa using h
  have hl : (vs.reverse ++ [f]).length = vs.length + 1 := by simp
  rcases h'.popCount with ⟨s, m', h1, h2⟩ | ⟨args, m1, h1, h2, h3⟩
  · rw [hl] at h1
    refine .inl ⟨s, m', ⟨1, ?_, ?_⟩, h2⟩
    · rw [hc 0, bind_panic h1]; rfl
    · rw [hc 0, bind_panic h1]
  rw [hl] at h1
  have hargs : All₂ (VRel W.kap) (receiver.getD f :: vs) (withReceiver receiver' args) := by
    rw [List.reverse_append, List.reverse_reverse] at h2
    cases h2 with
    | cons ha hs =>
      cases hr with
      | none => exact .cons ha hs
      | some hv => exact .cons hv hs
  have hc' : ∀ n, callX w vs.length (n + 1) m = (runNative w i (withReceiver receiver' args) >>= fun v => push v
      >>= fun _ => pure (Sig.normal, n + 1)) m1 := by
    intro n
    rw [hc, bind_ok h1]
  generalize withReceiver receiver' args = xs at hargs hc'
  unfold Src.runNative
  split
  · rename_i hk
    have := hn W.kap i _ xs σ.heap m1.heap hk hargs h3.inv.heap
    have hrun : runNative w i xs m1 = ((w.native i xs m1.heap).1, { m1 with heap := (w.native i xs m1.heap).2 }) := rfl
    generalize ha : w.native i (receiver.getD f :: vs) σ.heap = p at this
    generalize hb : w.native i xs m1.heap = q at this hrun
    cases this with
    | @ok v u a b hv hh =>
      rcases (h3.data hh).push hv with ⟨s, m2, e1, e2⟩ | ⟨_, m2, e1, e2⟩
      · refine .inl ⟨s, m2, ⟨1, ?_, ?_⟩, e2⟩
        · rw [hc' 0, bind_ok hrun, bind_panic e1]; rfl
        · rw [hc' 0, bind_ok hrun, bind_panic e1]
      · refine .inr ⟨.normal, m2, ⟨1, ?_, ?_⟩, rfl, .same (Nat.le_refl _) e2⟩
        · rw [hc' 0, bind_ok hrun, bind_ok e1]; rfl
        · rw [hc' 0, bind_ok hrun, bind_ok e1]; rfl
    | @err e a b =>
      refine .inr ⟨{ m1 with heap := b }, ⟨1, ?_, ?_⟩⟩
      · rw [hc' 0, bind_err hrun]; rfl
      · rw [hc' 0, bind_err hrun]
    | @panic s t a b =>
      refine .inr ⟨t, { m1 with heap := b }, ⟨1, ?_, ?_⟩⟩
      · rw [hc' 0, bind_panic hrun]; rfl
      · rw [hc' 0, bind_panic hrun]
  · exact .stuck

/-- The call of a value. -/
theorem apply_sim {known : Src.Known} (hn : NativeRel w known) (ih : CallSpec w n call) (hload : LoadSpec w n call) {f : Value}
    {vs : List Value} (hl : vs.length ≤ 255) (h : St C K W (vs.reverse ++ f :: ts) σ m) :
    Sim (n + 1) True (callX w vs.length) m (Src.apply w known call n f vs σ) (Norm (Called C K W ts σ.store.length)) NoJump := by
  have hg : (vs.reverse ++ f :: ts)[vs.length]? = some f := by
    rw [List.getElem?_append_right (by simp)]; simp
  obtain ⟨hlt, hv⟩ := h.rest.temps.get hg
  have hroom := h.rest.room (by simp)
  have hpk : peek vs.length m = (.ok (m.mem (m.ptr - vs.length - 1)), m) := by
    unfold Dice.peek
    rw [if_pos (by omega)]
  generalize hu : m.mem (m.ptr - vs.length - 1) = u at hv hpk
  have hfn : ∀ {k : Nat} {v : Value}, W.kap[k]? = some v → ∃ cl, σ.fns[k]? = some cl ∧ FnRel W.mu cl v := by
    intro k v hk
    rcases h.inv.fns.get k with ⟨-, h2⟩ | ⟨cl, v', h1, h2, h3⟩
    · rw [h2] at hk; cases hk
    · rw [h2] at hk; cases hk; exact ⟨cl, h1, h3⟩
  cases hv with
  | plain hp =>
    cases f <;> first
      | exact .stuck
      | exact hp.elim
      | exact class_call ih hl h hpk rfl
      | exact native_call hn (receiver := none) (receiver' := none) h hpk rfl .none
      | exact no_call fun n => by rw [callFn]; exact (bind_ok hpk).trans rfl
      | (rename_i us; cases us; exact hp.elim; exact .stuck)
  | @fn k v hk hf hp =>
    obtain ⟨cl, h1, h2⟩ := hfn hk
    have : Src.apply w known call n (Src.closure k) vs σ = Src.invoke w call n cl (Src.closure k) vs σ := by
      show (match σ.fns[k]? with
        | some cl => Src.invoke w call n cl (Option.getD none (Src.closure k)) vs σ
        | none => (.stuck, σ)) = _
      rw [h1]
      rfl
    rw [this]
    exact fn_call ih hload (receiver := none) (receiver' := none) h hu h2 (by
      cases u <;> first
        | rfl
        | exact hp.elim) (.fn hk hf hp)
  | @bound r r' f f' hr hf =>
    cases hf with
    | plain hp =>
      cases f <;> first
        | exact .stuck
        | exact hp.elim
        | exact class_call ih hl h hpk rfl
        | exact native_call hn (receiver := some r) (receiver' := some r') h hpk rfl (.some hr)
        | exact no_call fun n => by rw [callFn]; exact (bind_ok hpk).trans rfl
        | (rename_i us; cases us; exact hp.elim; exact .stuck)
    | @fn k v hk hf hp =>
      obtain ⟨cl, h1, h2⟩ := hfn hk
      have : Src.apply w known call n (.fnBound r (Src.closure k)) vs σ = Src.invoke w call n cl r vs σ := by
        show (match σ.fns[k]? with
          | some cl => Src.invoke w call n cl (Option.getD (some r) _) vs σ
          | none => (.stuck, σ)) = _
        rw [h1]
        rfl
      rw [this]
      exact fn_call ih hload (receiver := some r) (receiver' := some r') h hu h2 rfl hr
    | bound => exact no_call fun n => by rw [callFn]; exact (bind_ok hpk).trans rfl

end

end Dice.Sim
