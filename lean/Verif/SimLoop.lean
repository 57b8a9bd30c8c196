import Verif.SimFlow

/-!
# Blocks and loops follow the evaluator
-/

namespace Dice.Sim

open Src (SEnv State Out S Jump)

/-- The variables are those that were there before. -/
def Kept (C : Cx) (K : Nat → Prop) (W : Wd) (ts : List Value) (n : Nat) (σ' : State) (m' : VM) : Prop :=
  ∃ W', W.Le n W' ∧ W'.seg = W.seg ∧ n ≤ σ'.store.length ∧ St C K W' ts σ' m'

section
variable {C : Cx} {K : Nat → Prop} {W W1 W2 : Wd} {ts ts1 : List Value} {σ σ1 : State} {m m1 : VM} {w : World} {N : Nat} {R : Prop}
  {g g1 g2 g3 g4 g5 g' : Env} {c c1 c2 c3 : Code} {nd nd1 nd2 : Node} {call : Src.Calls} {n n1 : Nat}

theorem Kept.back (hle : W.Le n W1) (hs : W1.seg = W.seg) (hn : n ≤ n1) (h : Kept C K W1 ts n1 σ m) : Kept C K W ts n σ m := by
  obtain ⟨W', h1, h2, h3, h4⟩ := h
  exact ⟨W', hle.trans hn h1, h2.trans hs, Nat.le_trans hn h3, h4⟩

/-- The scopes of a jump end without the closing of variables: there is none to close. -/
theorem Left.kept {ρ' : SEnv} (h : Left C K W ts n ρ' σ m) (hc : Src.captured σ (W.seg ++ C.out) ρ' = false) :
    Kept C K W ts n σ m := by
  obtain ⟨W', h1, h2, rfl, h3⟩ := h
  obtain ⟨ext, he, -⟩ := h1.seg
  have hu := h3.rest.uncaptured (ext := ext) (ρ := W.seg ++ C.out) (by rw [he, List.append_assoc]) hc
  exact ⟨_, h1.drop, rfl, h2, h3.leave he hu fun s hs hk => hk.elim id fun h => by omega⟩

/-! ## Scopes -/

/-- The variables that may be captured inside a scope. -/
def inner (K : Nat → Prop) (k : Nat) (g : Env) (s : Nat) : Prop := (s < k ∧ K s) ∨ (k ≤ s ∧ g.Flagged s)

theorem Dest.rekey {K' : Nat → Prop} (h : Dest C K g) (hf : ∀ s, g.Flagged s → K' s) : Dest C K' g :=
  { h with flags := hf }

theorem Dest.inner {vars : List ScopeVar} (h : Dest C K g') (hp : g.popScope = some (vars, g')) (inv : StackInv g) :
    Dest C (inner K g'.vars.length g) g := by
  have inv' := ((stepRel.popScope hp).2.1 inv).1
  refine (h.rekey fun s hs => ?_).back (stepRel.popScope hp) inv fun s hs => ?_
  · exact .inl ⟨Env.flagged_lt inv' hs, h.flags s hs⟩
  · by_cases hlt : s < g'.vars.length
    · exact .inl ⟨hlt, h.flags s (popScope_keeps inv hp hs hlt)⟩
    · exact .inr ⟨by omega, hs⟩

theorem nodup_slots (k n : Nat) : ((List.range n).map (k + ·)).reverse.Nodup := by
  unfold List.Nodup
  rw [List.pairwise_reverse, List.pairwise_map]
  exact List.nodup_range.imp fun h e => h (by omega)

/-- The end of a scope. -/
theorem St.endScope {vars : List ScopeVar} (hp : g.popScope = some (vars, g')) (inv : StackInv g) (hd : Dest C K g')
    (hm : Matches g W1.seg) (hk : W.seg.length = g'.vars.length) (hle : W.Le n W1)
    (h : St C (inner K g'.vars.length g) W1 ts σ m) :
    DoesX w C.f C.ups (closeCode vars) m fun m' => St C K { W1 with seg := W.seg } ts σ m' := by
  obtain ⟨ext, he, -⟩ := hle.seg
  have inv' := ((stepRel.popScope hp).2.1 inv).1
  have hlen : W1.seg.length = g'.vars.length + vars.length := by
    rw [hm.length, popScope_vars hp, List.length_append, List.length_map]; omega
  have h256 := (hd.inner hp inv).slots
  have hv := Env.vars_le inv
  rw [popScope_vars hp, List.length_append, List.length_map] at hv
  refine h.closeScope he vars (fun v hv' => ?_) (fun v hv' => ?_) ?_ (fun s hs hk' => ?_) (fun s hs hk' => ?_)
  · have := popScope_above inv hp hv'; omega
  · have := popScope_above inv hp hv'; omega
  · rw [popScope_slots inv hp]; exact nodup_slots _ _
  · rcases hk' with h | h
    · exact h.2
    · omega
  · rcases hk' with h | ⟨-, h⟩
    · omega
    · rcases (popScope_flagged hp s).1 h with h | h
      · exact h
      · have := Env.flagged_lt inv' h; omega

theorem matches_push {k : ScopeKind} {e : Bool} {seg : SEnv} (h : Matches g seg) (hp : g.pushScope k e = some g1) : Matches g1 seg := by
  unfold Matches at h ⊢
  rw [h, Env.vars_view g1, pushScope_view hp, Env.vars_view g]; rfl

/-! ## Functions that are visible in all of a block -/

theorem scanDecl_hoisted {e : Expr} (h : scanDecl e g = some g') :
    (Src.hoisted e = none ∧ g' = g) ∨ ∃ x st slot, Src.hoisted e = some x ∧ g.addLocal x st = some (slot, g') := by
  cases e with
  | fnDecl =>
    simp only [scanDecl, Option.map_eq_some_iff] at h
    obtain ⟨⟨s, g1⟩, hl, rfl⟩ := h
    exact .inr ⟨_, _, _, rfl, hl⟩
  | classDecl =>
    simp only [scanDecl, Option.map_eq_some_iff] at h
    obtain ⟨⟨s, g1⟩, hl, rfl⟩ := h
    exact .inr ⟨_, _, _, rfl, hl⟩
  | exportDecl e =>
    have := scanDecl_hoisted (e := e) h
    simpa only [Src.hoisted] using this
  | _ => cases h; exact .inl ⟨rfl, rfl⟩

theorem hoist_st {es : List Expr} (hs : scanDecls es g = some g') (inv : StackInv g) (hd : Dest C K g') (hm : Matches g W.seg)
    (h : St C K W ts σ m) :
    ∃ W1 σ1, Src.hoist es (W.seg ++ C.out) σ = (.ok (W1.seg ++ C.out), σ1) ∧ W.Le σ.store.length W1 ∧
      σ.store.length ≤ σ1.store.length ∧ Matches g' W1.seg ∧ St C K W1 ts σ1 m := by
  induction es generalizing g W σ with
  | nil => cases hs; exact ⟨W, σ, rfl, .refl _ _, Nat.le_refl _, hm, h⟩
  | cons e es ih =>
    unfold scanDecls at hs
    split at hs
    · cases hs
    · rename_i g1 hs1
      rcases scanDecl_hoisted hs1 with ⟨h1, rfl⟩ | ⟨x, st, slot, h1, h2⟩
      · obtain ⟨W1, σ1, k1, k2⟩ := ih hs inv hm h
        refine ⟨W1, σ1, ?_, k2⟩
        unfold Src.hoist
        rw [h1]; exact k1
      · have inv1 := ((stepRel.addLocal h2).2.1 inv).1
        have hd1 : Dest C K g1 := hd.back (stepRel.scanDecls hs) inv1 fun s hf =>
          hd.flags s ((widensRel.scanDecls hs inv1).2.2 s hf)
        obtain ⟨rfl, k2, k3, k4, -⟩ := addLocal_slot inv h2 hm hd1
        obtain ⟨W1, σ1, l1, l2, l3, l4, l5⟩ := ih hs inv1 (k4 σ.store.length) (h.alloc (o := none) x k2 (by rintro _ ⟨⟩))
        simp only [List.length_append] at l3
        refine ⟨W1, σ1, ?_, (W.le_alloc x _ _ (Nat.le_refl _)).trans (by simp) l2, by omega, l4, l5⟩
        unfold Src.hoist
        rw [h1]; exact l1

/-! ## Blocks -/

/-- The code of a block follows the evaluator. -/
def FollowsB (w : World) (N : Nat) (g : Env) (e : Src.Role → SEnv → S Value) (k : BlockKind) (c : Code) (g' : Env) : Prop :=
  ∀ {C : Cx} {K : Nat → Prop} {W : Wd} {ts : List Value} {R : Prop} {σ : State} {m : VM}, Here C K g g' c W ts R σ m →
    Sim N R (exec w C.f C.ups c) m (e C.role (W.seg ++ C.out) σ)
      (Norm fun v => Kept C K W (match k with | .block => v :: ts | .loop => ts) σ.store.length) (Jmp C K W ts σ.store.length)

/-- The value of a block. -/
def evalBlock (w : World) (call : Src.Calls) (r : Src.Role) (n : Nat) (es : List Expr) (t : Option Expr)
    (ρ : SEnv) : S Value :=
  Src.block es t (Src.evalStmts w call r n es) (Src.evalOpt w call r n t) ρ

theorem evalBlock_after {r : Src.Role} {es : List Expr} {t : Option Expr} {ρ ρ1 : SEnv} (h : Src.hoist (es ++ t.toList) ρ σ = (.ok ρ1, σ1)) :
    evalBlock w call r N es t ρ σ = (evalSeq w call r N es t ρ1 >>= fun r => pure r.1) σ1 := by
  unfold evalBlock Src.block evalSeq
  show S.bind _ _ σ = S.bind (S.bind _ _) _ σ1
  unfold S.bind
  rw [h]
  show S.bind _ _ σ1 = _
  unfold S.bind
  cases Src.evalStmts w call r N es ρ1 σ1 with
  | mk o σ2 =>
    cases o with
    | ok ρ2 => rfl
    | _ => rfl

theorem case_block {k : BlockKind} {es : List Expr} {t : Option Expr} {vars : List ScopeVar} (h0 : g.pushScope .block false = some g1)
    (hs : scanBlock es t g1 = some g2) (gen : Gen g2 (.seq es t) c g3) (hp : g3.popScope = some (vars, g'))
    (ih : FollowsE w N g2 (evalSeq w call · N es t) c g3) :
    FollowsB w N g (evalBlock w call · N es t) k
      (.block [c, (match k with | .loop => .op .pop | .block => .nop), closeCode vars]) g' := by
  intro C K W ts R σ m h
  try dsimp only
  have good1 := h.good.step (stepRel.pushScope h0)
  have good2 := good1.step (stepRel.scanDecls hs)
  have good3 := good2.gen gen
  have hv : g'.view = g.view :=
    (Widens.scope h0 (widensRel.trans (widensRel.scanDecls hs) gen.widens) hp h.good.inv).2.1
  have hk : W.seg.length = g'.vars.length := (h.seg.congr hv).length
  have hd3 := h.dest.inner hp good3.inv
  have hd2 := hd3.gen gen good2.inv
  have hst : St C (inner K g'.vars.length g3) W ts σ m := h.st.weaken fun s hlt hks => .inl ⟨by omega, hks⟩
  obtain ⟨W1, σ1, k1, k2, k3, k4, k5⟩ := hoist_st hs good1.inv hd2 (matches_push h.seg h0) hst
  rw [evalBlock_after k1]
  have body := ih (C := C) (W := W1) (ts := ts) (R := R) (σ := σ1) (m := m)
    ⟨good2, hd3, fun b hb => h.fit b (by simp [Code.block, Code.HasFn, hb]), k4, k5, fun r => ⟨(h.ret r).1, by
      rw [temps_pending, scanDecls_pending hs, pushScope_pending h0, ← temps_pending]; exact (h.ret r).2⟩⟩
  have hl := k2.length
  have left : ∀ {ts ρ' σ' m'}, Left C (inner K g'.vars.length g3) W1 ts σ1.store.length ρ' σ' m' →
      Left C K W ts σ.store.length ρ' σ' m' := by
    rintro ts ρ' σ' m' ⟨W', l1, l2, l3, l4⟩
    refine ⟨W', k2.trans k3 l1, Nat.le_trans k3 l2, l3, l4.weaken fun s _ hs => ?_⟩
    rcases hs with (hs | hs) | hs
    · exact .inl hs.2
    · right; omega
    · right; omega
  refine Sim.seq (P := Post C (inner K g'.vars.length g3) W1 g3 ts σ1.store.length)
    (body.mono (fun _ _ _ _ h => h) id fun j σ' m' hj => ?_) ?_
  · cases j with
    | brk => exact left hj
    | cont => exact left hj
    | ret => exact left hj
    | bad => trivial
    | exit => exact left hj
  · rintro ⟨v, ρ⟩ σ2 m2 ⟨W2, l1, l2, l3, l4, l5⟩
    have fin : ∀ {ts' : List Value} {m3 : VM}, St C (inner K g'.vars.length g3) W2 ts' σ2 m3 →
        Sim N R (exec w C.f C.ups (.seq (closeCode vars) .nop)) m3 (.ok v, σ2)
          (Norm fun _ => Kept C K W ts' σ.store.length) (Jmp C K W ts σ.store.length) := by
      intro ts' m3 hst
      refine .last (.ofDoes (hst.endScope hp good3.inv h.dest l4 hk (k2.trans k3 l1)) ?_)
      intro m4 h4
      exact ⟨rfl, _, (k2.trans k3 l1).drop, rfl, Nat.le_trans k3 l2, h4⟩
    cases k with
    | loop => exact Sim.step l5.popOp fun m3 h3 => fin h3
    | block => exact Sim.steps (.nop (P := fun m => m = m2) rfl) fun m3 h3 => by subst h3; exact fin l5

theorem case_blockExpr {es : List Expr} {t : Option Expr} (gen : Gen g (.block .block es t) c g')
    (ih : FollowsB w N g (evalBlock w call · N es t) .block c g') :
    FollowsE w N g (Src.eval w call · N false (.block es t)) c g' := by
  intro C K W ts R σ m h
  try dsimp only
  rw [Src.eval]
  refine (ih h).thenE ?_
  rintro v σ1 s m1 ⟨hs, W1, h1, h2, h3, h4⟩
  exact ⟨_, _, rfl, hs, W1, h1, h3, by rw [h2], by rw [h2]; exact h.seg.congr (gen.still h.good.inv rfl), h4⟩

/-! ## Loops -/

theorem Jmp.round {β : Type} {next : Option β} {I : β → State → VM → Prop} {D : State → VM → Prop} {j : Jump}
    (hD : Kept C K W ts n σ m → D σ m) (hI : ∀ a, next = some a → Kept C K W ts n σ m → I a σ m)
    (h : Jmp C K W ts n j σ m) : RoundJ (W.seg ++ C.out) next I D (Jmp C K W ts n) j σ m := by
  cases j with
  | brk => exact fun hc => hD (Left.kept h hc)
  | cont => exact fun a ha hc => hI a ha (Left.kept h hc)
  | ret => exact h
  | bad => trivial
  | exit => trivial

/-- The scope of a loop has no variables of its own. -/
theorem Dest.loop {vars : List ScopeVar} (h : Dest C K g') (hp : g.popScope = some (vars, g')) (inv : StackInv g) (hv : vars = []) :
    Dest C K g := by
  subst hv
  refine h.back (stepRel.popScope hp) inv fun s hs => h.flags s ?_
  rcases (popScope_flagged hp s).1 hs with ⟨v, hv, -⟩ | h
  · cases hv
  · exact h

theorem loop_vars {k : ScopeKind} {e : Bool} {vars : List ScopeVar} (h0 : g.pushScope k e = some g1) (hv : g2.view = g1.view)
    (hp : g2.popScope = some (vars, g')) : vars = [] ∧ g'.view = g.view := by
  have := (popScope_view hp).symm.trans (hv.trans (pushScope_view h0))
  simp only [List.cons.injEq, List.map_eq_nil_iff] at this
  exact this

/-- After a loop. -/
theorem Sim.afterLoop (hm : Matches g' W.seg) {J : Jump → State → VM → Prop} {e : S Unit}
    (h : Sim N R (exec w C.f C.ups c) m (e σ) (Norm fun _ => Kept C K W ts n) J) :
    Sim N R (exec w C.f C.ups (.seq c (.op .pushUnit))) m ((e >>= fun _ => pure (Value.unit, W.seg ++ C.out)) σ)
      (Norm (Post C K W g' ts n)) J := by
  refine Sim.seq h ?_
  rintro ⟨⟩ σ1 m1 ⟨W1, h1, h2, h3, h4⟩
  rw [← h2]
  exact Sim.value h1 h3 (by rw [h2]; exact hm) (Sim.op0 (h4.pushes (.plain (v := .unit) trivial) rfl))

theorem case_loop {es : List Expr} {t : Option Expr} {vars : List ScopeVar} (h0 : g.pushScope .loop true = some g1)
    (gen : Gen g1 (.block .loop es t) c g2) (hp : g2.popScope = some (vars, g'))
    (ih : FollowsB w N g1 (evalBlock w call · N es t) .loop c g2) :
    FollowsE w N g (Src.eval w call · N false (.loop (.block es t))) (.seq (.loop c) (.op .pushUnit)) g' := by
  intro C K W ts R σ m h
  try dsimp only
  rw [Src.eval]
  have good1 := h.good.step (stepRel.pushScope h0)
  have good2 := good1.gen gen
  obtain ⟨hv, hv'⟩ := loop_vars h0 (gen.still good1.inv rfl) hp
  refine Sim.afterLoop (h.seg.congr hv') ?_
  refine Sim.loop (I := fun _ => Kept C K W ts σ.store.length) ?_ ⟨W, .refl _ _, rfl, Nat.le_refl _, h.st⟩
  rintro ⟨⟩ σ1 m1 ⟨W1, h1, h2, h3, h4⟩
  have body := ih (C := C) (K := K) (W := W1) (ts := ts) (R := R) (σ := σ1) (m := m1)
    ⟨good1, h.dest.loop hp good2.inv hv, fun b hb => h.fit b (by simp [Code.HasFn, hb]),
      by rw [h2]; exact matches_push h.seg h0, h4, fun r => ⟨(h.ret r).1, by rw [temps_pending, pushScope_pending h0, ← temps_pending]; exact (h.ret r).2⟩⟩
  rw [h2] at body
  refine Sim.thenE (body.mono (fun _ _ _ _ h => h) id fun j σ' m' hj => ?_) ?_
  · exact Jmp.round id (fun _ _ h => h) (Jmp.back h1 h3 hj)
  · rintro v σ2 s m2 ⟨hs, h5⟩
    exact ⟨some (), σ2, rfl, hs, h5.back h1 h2 h3⟩

theorem case_whileLoop {a : Expr} {es : List Expr} {t : Option Expr} {vars : List ScopeVar} (h0 : g.pushScope .loop true = some g1)
    (gen1 : Gen g1 (.expr a) c1 g2) (gen2 : Gen g2 (.block .loop es t) c2 g3) (hp : g3.popScope = some (vars, g'))
    (ih1 : FollowsE w N g1 (Src.eval w call · N false a) c1 g2) (ih2 : FollowsB w N g2 (evalBlock w call · N es t) .loop c2 g3) :
    FollowsE w N g (Src.eval w call · N false (.whileLoop a (.block es t)))
      (.seq (.loop (.block [c1, .breakIf false, c2])) (.op .pushUnit)) g' := by
  intro C K W ts R σ m h
  try dsimp only
  rw [Src.eval]
  refine Sim.guard fun hd => ?_
  have good1 := h.good.step (stepRel.pushScope h0)
  have good2 := good1.gen gen1
  have good3 := good2.gen gen2
  have hv1 := gen1.still good1.inv (show Src.declares a = false by simpa using hd)
  have hv2 := gen2.still good2.inv rfl
  obtain ⟨hv, hv'⟩ := loop_vars h0 (hv2.trans hv1) hp
  have hd3 := h.dest.loop hp good3.inv hv
  have ht1 : ∀ r : R, ts = [] ∧ g1.temps = 0 := fun r =>
    ⟨(h.ret r).1, by rw [temps_pending, pushScope_pending h0, ← temps_pending]; exact (h.ret r).2⟩
  refine Sim.afterLoop (h.seg.congr hv') ?_
  refine Sim.loop (I := fun _ => Kept C K W ts σ.store.length) ?_ ⟨W, .refl _ _, rfl, Nat.le_refl _, h.st⟩
  rintro ⟨⟩ σ1 m1 ⟨W1, h1, h2, h3, h4⟩
  have cond := ih1 (C := C) (K := K) (W := W1) (ts := ts) (R := R) (σ := σ1) (m := m1)
    ⟨good1, hd3.gen gen2 good2.inv, fun b hb => h.fit b (by simp [Code.block, Code.HasFn, hb]),
      by rw [h2]; exact matches_push h.seg h0, h4, ht1⟩
  rw [h2] at cond
  refine Sim.seq (P := Post C K W1 g2 ts σ1.store.length) (cond.mono (fun _ _ _ _ h => h) id fun j σ' m' hj => ?_) ?_
  · exact Jmp.round id (fun _ _ h => h) (Jmp.back h1 h3 hj)
  rintro ⟨v, ρ⟩ σ2 m2 ⟨W2, k1, k2, k3, k4, k5⟩
  have hlen : W2.seg = W1.seg := k1.seg_eq (by
    have e1 := k4.length
    have e2 := (matches_push h.seg h0).length
    rw [e1, h2, e2, Env.vars_view, Env.vars_view, hv1])
  have hle2 : W.Le σ.store.length W2 := h1.trans h3 k1
  have hn2 := Nat.le_trans h3 k2
  simp only at k3
  subst k3
  refine Sim.breakIf k5.popTruth ?_ ?_
  · rintro x _ m3 ⟨rfl, rfl, k6⟩
    exact ⟨none, _, rfl, rfl, W2, hle2, hlen.trans h2, hn2, k6⟩
  · rintro x σ2 m3 ⟨rfl, rfl, k6⟩
    have body := ih2 (C := C) (K := K) (W := W2) (ts := ts) (R := R) (σ := σ2) (m := m3)
      ⟨good2, hd3, fun b hb => h.fit b (by simp [Code.block, Code.HasFn, hb]), k4, k6,
        fun r => ⟨(ht1 r).1, by rw [gen1.temps rfl]; exact (ht1 r).2⟩⟩
    refine Sim.last (Sim.thenE (body.mono (fun _ _ _ _ h => h) id fun j σ' m' hj => ?_) ?_)
    · exact Jmp.round id (fun _ _ h => h) (Jmp.back hle2 hn2 hj)
    · rintro v σ3 s m4 ⟨hs, h5⟩
      exact ⟨some (), σ3, rfl, hs, h5.back hle2 (hlen.trans h2) hn2⟩

theorem Sim.noReturn {α : Type} {x : X} {e : S α} {Q : α → State → Sig → VM → Prop} {J J' : Jump → State → VM → Prop}
    (h : Sim N False x m (e σ) Q J) (hj : ∀ j σ m, (∀ ρ v, j ≠ .ret ρ v) → J j σ m → J' j σ m) :
    Sim N R x m (S.noReturn e σ) Q J' := by
  rcases h with h | h
  · exact .inl h
  · unfold S.noReturn
    cases hx : e σ with
    | mk o σ1 =>
      rw [hx] at h
      cases o with
      | jump j =>
        cases j with
        | ret => exact .stuck
        | bad => exact .stuck
        | brk | cont | exit =>
          refine .inr fun _ => ?_
          obtain ⟨m', h1, h2⟩ := h trivial
          exact ⟨m', h1, hj _ _ _ (by simp) h2⟩
      | _ => exact .inr h

theorem Rest.fresh (h : St C K W ts σ m) {l : Nat} (hl : σ.store.length ≤ l) : W.mu l = none := by
  cases ha : W.mu l with
  | none => rfl
  | some a => have := h.inv.muBound _ _ ha; omega

/-- The round of a loop over a range. -/
theorem range_round (hc : CallSpec w N call) {cmp : Opcode} (ho : IsBinary cmp) {x : String} {body : Expr} {slot : Nat}
    {vars : List ScopeVar} {v stop : Value} (good : Good C g) (h0 : g.pushScope .loop false = some g1)
    (hl : g1.addLocal x (.initialized false) = some (slot, g2)) (gen : Gen g2 (.expr body) c g3)
    (hp : g3.popScope = some (vars, g')) (hd : Dest C K g') (hf : ∀ b, c.HasFn b → Fits b) (hm : Matches g W.seg)
    (ih : FollowsE w N g2 (Src.eval w call · N false body) c g3) (hst : St C K W (v :: stop :: ts) σ m) :
    Sim N False (exec w C.f C.ups (.block [.num .storeLocal slot, .num .dup 1, .op cmp, .breakIf false, c, .op .pop,
        .num .loadLocal slot, .op .pushI1, .op .add, closeCode vars])) m
      (Src.rangeRound w call cmp x stop (W.seg ++ C.out) (Src.eval w call C.role N false body) v σ)
      (Round (fun v => Kept C K W (v :: stop :: ts) σ.store.length) (Kept C K W (stop :: ts) σ.store.length))
      (RoundJ (W.seg ++ C.out) none (fun v => Kept C K W (v :: stop :: ts) σ.store.length)
        (Kept C K W (stop :: ts) σ.store.length) fun _ _ _ => True) := by
  have good1 := good.step (stepRel.pushScope h0)
  have good2 := good1.step (stepRel.addLocal hl)
  have good3 := good2.gen gen
  have hv : g'.view = g.view :=
    (Widens.scope h0 (widensRel.trans (widensRel.addLocal hl) gen.widens) hp good.inv).2.1
  have hk : W.seg.length = g'.vars.length := (hm.congr hv).length
  have hd3 := hd.inner hp good3.inv
  have hd2 := hd3.gen gen good2.inv
  obtain ⟨rfl, k2, k3, k4, -⟩ := addLocal_slot good1.inv hl (matches_push hm h0) hd2
  have hst' : St C (inner K g'.vars.length g3) W (v :: stop :: ts) σ m := hst.weaken fun s hlt hks => .inl ⟨by omega, hks⟩
  unfold Src.rangeRound
  refine Sim.step (hst'.storeLocalOp (Nat.le_refl _) k2 k3) fun m1 h1 => ?_
  have h2 := h1.1.alloc (o := some v) x k2 (by rintro _ ⟨⟩; exact h1.2)
  have hfree : W.mu σ.store.length = none := Rest.fresh hst (Nat.le_refl _)
  have hle1 := W.le_alloc x σ.store.length σ.store.length (Nat.le_refl _)
  generalize hW1 : ({ W with seg := (x, σ.store.length) :: W.seg } : Wd) = W1 at h2 hle1
  have hseg1 : W1.seg = (x, σ.store.length) :: W.seg := by rw [← hW1]
  have hmu1 : W1.mu σ.store.length = none := by rw [← hW1]; exact hfree
  have hm1 : Matches g2 W1.seg := by rw [hseg1]; exact k4 _
  show Sim N False _ m1 ((Src.binary w call cmp v stop >>= fun c => Src.truth c >>= fun b => _)
    { σ with store := σ.store ++ [some v] }) _ _
  have hlen1 : ({ σ with store := σ.store ++ [some v] } : State).store.length = σ.store.length + 1 := by simp
  refine Sim.step (h2.dupOp (n := 1) rfl (by omega)) fun m2 h3 => ?_
  refine Sim.seq (h3.operatorCalled hc ho) ?_
  rintro cv σ2 m3 ⟨W2, l1, l2, l3, l4, l5⟩
  rw [hlen1] at l1 l3 l5
  have hmu2 : W2.mu σ.store.length = none := l5 _ (by omega) hmu1
  have hle2 : W.Le σ.store.length W2 := hle1.trans (by omega) l1
  refine Sim.breakIf l4.popTruth ?_ ?_
  · rintro b _ m4 ⟨rfl, rfl, h5⟩
    refine ⟨none, _, rfl, rfl, _, hle2.drop, rfl, by omega, ?_⟩
    refine h5.leave (ext := [(x, σ.store.length)]) (l2.trans hseg1) ?_ ?_
    · intro y l hy
      simp only [List.mem_singleton, Prod.mk.injEq] at hy
      rw [hy.2]; exact hmu2
    · rintro s hs (hs' | hs')
      · exact hs'.2
      · omega
  · rintro b σ2 m4 ⟨rfl, rfl, h5⟩
    have run := ih (C := C) (W := W2) (ts := stop :: ts) (R := False) (σ := σ2) (m := m4)
      ⟨good2, hd3, hf, by rw [l2]; exact hm1, h5, False.elim⟩
    rw [l2, hseg1] at run
    refine Sim.seq (P := Post C (inner K g'.vars.length g3) W2 g3 (stop :: ts) σ2.store.length)
      (run.mono (fun _ _ _ _ h => h) id fun j σ' m' hj => ?_) ?_
    · have left : ∀ {ρ'}, Left C (inner K g'.vars.length g3) W2 (stop :: ts) σ2.store.length ρ' σ' m' →
          Src.captured σ' (W.seg ++ C.out) ρ' = false → Kept C K W (stop :: ts) σ.store.length σ' m' := by
        rintro ρ' ⟨W', q1, q2, q3, q4⟩ hcap
        refine Left.kept (ρ' := ρ') ⟨W', hle2.trans (by omega) q1, by omega, q3, q4.weaken fun s _ hs => ?_⟩ hcap
        have hl2 := hle2.length
        rcases hs with (hs | hs) | hs
        · exact .inl hs.2
        · right; omega
        · right; omega
      cases j with
      | brk => exact fun hcap => left hj hcap
      | cont => exact fun _ h => by cases h
      | ret => trivial
      | bad => trivial
      | exit => trivial
    · rintro ⟨u, ρ⟩ σ3 m5 ⟨W3, q1, q2, q3, q4, q5⟩
      refine Sim.step q5.popOp fun m6 h6 => ?_
      have hslot : slotLoc W3.seg W.seg.length = some σ.store.length := by
        obtain ⟨ext, he, -⟩ := q1.seg
        rw [he, slotLoc_append _ _ _ (by rw [l2, hseg1]; simp), l2, hseg1]
        exact slotLoc_cons _ _ _
      refine Sim.seqI (r := fun v => v) (h6.loadLocalOp hslot k3) fun v' m7 h7 => ?_
      refine Sim.step (h7.pushes (.plain (v := .int 1) trivial) rfl) fun m8 h8 => ?_
      refine Sim.seq (h8.operatorCalled hc (o := .add) fun _ _ _ _ _ _ => rfl) ?_
      rintro v'' σ4 m9 ⟨W4, r1, r2, r3, r4, -⟩
      have hle4 : W.Le σ.store.length W4 := (hle2.trans (by omega) q1).trans (by omega) r1
      refine .last (.ofDoes (r4.endScope hp good3.inv hd (by rw [r2]; exact q4) hk hle4) ?_)
      intro m10 h10
      exact ⟨rfl, _, hle4.drop, rfl, by omega, h10⟩

theorem case_rangeLoop (hc : CallSpec w N call) {x : String} {op : BinaryOp} {a b body : Expr} {slot : Nat} {vars : List ScopeVar}
    (hop : op = .rangeInclusive ∨ op = .rangeExclusive) (gen1 : Gen g (.expr b) c1 g1) (gen2 : Gen g1 (.expr a) c2 g2)
    (h0 : g2.pushScope .loop false = some g3) (hl : g3.addLocal x (.initialized false) = some (slot, g4))
    (gen3 : Gen g4 (.expr body) c3 g5) (hp : g5.popScope = some (vars, g'))
    (ih1 : FollowsE w N g (Src.eval w call · N false b) c1 g1) (ih2 : FollowsE w N g1 (Src.eval w call · N false a) c2 g2)
    (ih3 : FollowsE w N g4 (Src.eval w call · N false body) c3 g5) :
    FollowsE w N g (Src.eval w call · N false (.forLoop x (.binary op a b) body))
      (.block [c1, c2,
        .loop (.block [.num .storeLocal slot, .num .dup 1,
          .op (if op = .rangeInclusive then .lessThanOrEqual else .lessThan), .breakIf false, c3, .op .pop,
          .num .loadLocal slot, .op .pushI1, .op .add, closeCode vars]),
        .op .pop, .op .pushUnit]) g' := by
  intro C K W ts R σ m h
  try dsimp only
  have ho : Src.rangeOp op = some (if op = .rangeInclusive then .lessThanOrEqual else .lessThan) ∧
      IsBinary (if op = .rangeInclusive then .lessThanOrEqual else .lessThan) := by
    rcases hop with rfl | rfl
    · exact ⟨rfl, fun _ _ _ _ _ _ => rfl⟩
    · exact ⟨rfl, fun _ _ _ _ _ _ => rfl⟩
  obtain ⟨ho, hb⟩ := ho
  generalize (if op = .rangeInclusive then Opcode.lessThanOrEqual else .lessThan) = cmp at ho hb h ⊢
  simp only [Src.eval, ho]
  have good2 := (h.good.gen gen1).gen gen2
  have good3 := good2.step (stepRel.pushScope h0)
  have good4 := good3.step (stepRel.addLocal hl)
  have good5 := good4.gen gen3
  obtain ⟨-, hv, hfl⟩ := Widens.scope h0 (widensRel.trans (widensRel.addLocal hl) gen3.widens) hp good2.inv
  have hs : Step g2 g' := stepRel.trans (stepRel.pushScope h0) (stepRel.trans (stepRel.addLocal hl)
    (stepRel.trans (gen3.rel stepRel) (stepRel.popScope hp)))
  have hd2 : Dest C K g2 := h.dest.back hs good2.inv fun s hs => h.dest.flags s (hfl s hs)
  have hh : Here C K g g2 _ W ts R σ m := { h with dest := hd2 }
  refine Sim.sub (ih1 (hh.left gen1 gen2 (by hasfn))) fun stop W1 σ1 m1 h1 h2 h3 h4 => ?_
  refine Sim.subOp (ih2 (hh.right gen1 (by hasfn) h3 h4)) fun start W2 σ2 m2 k1 k2 k3 k4 => ?_
  have hle := h1.trans h2 k1
  have hn := Nat.le_trans h2 k2
  refine Sim.seq (P := fun _ => Kept C K W2 (stop :: ts) σ2.store.length)
    (Sim.loop (I := fun v => Kept C K W2 (v :: stop :: ts) σ2.store.length) ?_ ⟨W2, .refl _ _, rfl, Nat.le_refl _, k4⟩) ?_
  · rintro v σ3 m3 ⟨W3, l1, l2, l3, l4⟩
    have key := range_round (W := W3) hc hb good2 h0 hl gen3 hp h.dest
      (fun b hb => h.fit b (by simp [Code.block, Code.HasFn, hb])) (by rw [l2]; exact k3) ih3 l4
    rw [l2] at key
    refine Sim.noReturn (key.post (Q' := Round (fun v => Kept C K W2 (v :: stop :: ts) σ2.store.length)
      (Kept C K W2 (stop :: ts) σ2.store.length)) ?_) ?_
    · intro o σ' s m' ho
      cases o with
      | none => exact ⟨ho.1, ho.2.back l1 l2 l3⟩
      | some v => exact ⟨ho.1, ho.2.back l1 l2 l3⟩
    · intro j σ' m' hj hr
      cases j with
      | brk => exact fun hcap => (hr hcap).back l1 l2 l3
      | cont => exact fun _ h => by cases h
      | ret ρ v => exact absurd rfl (hj ρ v)
      | bad => trivial
      | exit => trivial
  · rintro ⟨⟩ σ3 m3 ⟨W3, l1, l2, l3, l4⟩
    refine Sim.step l4.popOp fun m4 h5 => .last ?_
    rw [← l2]
    exact Sim.value (hle.trans hn l1) (Nat.le_trans hn l3) (by rw [l2]; exact k3.congr hv)
      (Sim.op0 (h5.pushes (.plain (v := .unit) trivial) rfl))

/-! ## Loops over an iterator -/

/-- The round of a loop over an iterator. -/
theorem iter_round (hc : CallSpec w N call) {x : String} {body : Expr} {slot : Nat} {vars : List ScopeVar} {next : Value}
    (good : Good C g) (h0 : g.pushScope .loop false = some g1) (hl : g1.addLocal x (.initialized false) = some (slot, g2))
    (gen : Gen g2 (.expr body) c g3) (hp : g3.popScope = some (vars, g')) (hd : Dest C K g') (hf : ∀ b, c.HasFn b → Fits b)
    (hm : Matches g W.seg) (ih : FollowsE w N g2 (Src.eval w call · N false body) c g3) (hst : St C K W (next :: ts) σ m) :
    Sim N False (exec w C.f C.ups (.block [.num .dup 0, .num .call 0, .num .dup 0, .sym .loadField "is_done", .breakIf true,
        .instr (.fieldToLocal "value" (UInt8.ofNat slot)), .op .pop, c, .op .pop, closeCode vars])) m
      (Src.iterRound w call x next (W.seg ++ C.out) (Src.eval w call C.role N false body) σ)
      (Round (fun (_ : Unit) => Kept C K W (next :: ts) σ.store.length)
        fun σ' m' => ∃ r, Kept C K W (r :: next :: ts) σ.store.length σ' m') fun _ _ _ => True := by
  have good1 := good.step (stepRel.pushScope h0)
  have good2 := good1.step (stepRel.addLocal hl)
  have good3 := good2.gen gen
  have hv : g'.view = g.view :=
    (Widens.scope h0 (widensRel.trans (widensRel.addLocal hl) gen.widens) hp good.inv).2.1
  have hk : W.seg.length = g'.vars.length := (hm.congr hv).length
  have hd3 := hd.inner hp good3.inv
  have hd2 := hd3.gen gen good2.inv
  obtain ⟨rfl, k2, k3, k4, -⟩ := addLocal_slot good1.inv hl (matches_push hm h0) hd2
  unfold Src.iterRound
  refine Sim.step (hst.dupOp (n := 0) rfl (by omega)) fun m1 h1 => ?_
  refine Sim.seq (St.callOp (vs := []) hc (by simp) h1) ?_
  rintro r σ1 m2 ⟨W1, a1, a2, a3, a4⟩
  refine Sim.step (a4.dupOp (n := 0) rfl (by omega)) fun m3 h3 => ?_
  refine Sim.seqI (r := fun v => v) (h3.loadFieldOp "is_done") fun d m4 h4 => ?_
  refine Sim.breakIf h4.popTruth ?_ ?_
  · rintro b _ m5 ⟨rfl, rfl, h5⟩
    exact ⟨none, _, rfl, rfl, r, W1, a1, a2, a3, h5⟩
  · rintro b σ1 m5 ⟨rfl, rfl, h5⟩
    have hk1 : W1.seg.length = W.seg.length := by rw [a2]
    have h5' : St C (inner K g'.vars.length g3) W1 (r :: next :: ts) σ1 m5 :=
      h5.weaken fun s hlt hks => .inl ⟨by omega, hks⟩
    refine Sim.seq (P := fun v σ' m' => σ' = σ1 ∧ St C (inner K g'.vars.length g3) W1 (v :: next :: ts) σ1 m' ∧
      VRel W1.kap v (m'.mem (C.f.start + W.seg.length))) (.instr (h5'.fieldToLocalOp "value" (by omega) k2 k3)) ?_
    rintro v σ1 m6 ⟨rfl, h6, h6'⟩
    rw [← hk1] at h6' k2
    have h7 := h6.alloc (o := some v) x k2 (by rintro _ ⟨⟩; exact h6')
    have hle1 := W1.le_alloc x σ1.store.length σ1.store.length (Nat.le_refl _)
    generalize hW2 : ({ W1 with seg := (x, σ1.store.length) :: W1.seg } : Wd) = W2 at h7 hle1
    have hseg2 : W2.seg = (x, σ1.store.length) :: W1.seg := by rw [← hW2]
    show Sim N False _ m6 ((Src.eval w call C.role N false body ((x, σ1.store.length) :: (W.seg ++ C.out)) >>= fun _ => pure (some ()))
      { σ1 with store := σ1.store ++ [some v] }) _ _
    have hlen1 : ({ σ1 with store := σ1.store ++ [some v] } : State).store.length = σ1.store.length + 1 := by simp
    refine Sim.step h7.popOp fun m7 h8 => ?_
    have run := ih (C := C) (W := W2) (ts := next :: ts) (R := False) (σ := { σ1 with store := σ1.store ++ [some v] }) (m := m7)
      ⟨good2, hd3, hf, by rw [hseg2, a2]; exact k4 _, h8, False.elim⟩
    rw [hseg2, a2] at run
    refine Sim.seq (P := Post C (inner K g'.vars.length g3) W2 g3 (next :: ts) _)
      (run.mono (fun _ _ _ _ h => h) id fun j σ' m' hj => trivial) ?_
    rintro ⟨u, ρ⟩ σ3 m8 ⟨W3, q1, q2, q3, q4, q5⟩
    rw [hlen1] at q1 q2
    refine Sim.step q5.popOp fun m9 h9 => ?_
    have hle3 : W.Le σ.store.length W3 := a1.trans a3 (hle1.trans (by omega) q1)
    refine .last (.ofDoes (h9.endScope hp good3.inv hd q4 hk hle3) ?_)
    intro m10 h10
    exact ⟨rfl, _, hle3.drop, rfl, by omega, h10⟩

theorem forLoop_iter {x : String} {source body : Expr} {r : Src.Role} {ρ : SEnv}
    (hns : ∀ a b, source ≠ .binary .rangeInclusive a b ∧ source ≠ .binary .rangeExclusive a b) :
    Src.eval w call r N false (.forLoop x source body) ρ =
      Src.iterLoop w call N x (Src.eval w call r N false source ρ) (Src.eval w call r N false body) := by
  cases source with
  | binary op a b =>
    cases op with
    | rangeInclusive => exact absurd rfl (hns a b).1
    | rangeExclusive => exact absurd rfl (hns a b).2
    | _ => simp only [Src.eval, Src.rangeOp]
  | _ => simp only [Src.eval]

theorem case_forLoop (hc : CallSpec w N call) {x : String} {source body : Expr} {slot : Nat} {vars : List ScopeVar}
    (hns : ∀ a b, source ≠ .binary .rangeInclusive a b ∧ source ≠ .binary .rangeExclusive a b)
    (gen1 : Gen g (.expr source) c1 g1) (h0 : g1.pushScope .loop false = some g2)
    (hl : g2.addLocal x (.initialized false) = some (slot, g3)) (gen2 : Gen g3 (.expr body) c2 g4)
    (hp : g4.popScope = some (vars, g')) (ih1 : FollowsE w N g (Src.eval w call · N false source) c1 g1)
    (ih2 : FollowsE w N g3 (Src.eval w call · N false body) c2 g4) :
    FollowsE w N g (Src.eval w call · N false (.forLoop x source body))
      (.block [c1, .sym .loadField "iter", .num .call 0, .sym .loadField "next",
        .loop (.block [.num .dup 0, .num .call 0, .num .dup 0, .sym .loadField "is_done", .breakIf true,
          .instr (.fieldToLocal "value" (UInt8.ofNat slot)), .op .pop, c2, .op .pop, closeCode vars]),
        .op .pop, .op .pop, .op .pushUnit]) g' := by
  intro C K W ts R σ m h
  try dsimp only
  rw [forLoop_iter hns]
  unfold Src.iterLoop
  have good1 := h.good.gen gen1
  obtain ⟨-, hv, hfl⟩ := Widens.scope h0 (widensRel.trans (widensRel.addLocal hl) gen2.widens) hp good1.inv
  have hs : Step g1 g' := stepRel.trans (stepRel.pushScope h0) (stepRel.trans (stepRel.addLocal hl)
    (stepRel.trans (gen2.rel stepRel) (stepRel.popScope hp)))
  have hd1 : Dest C K g1 := h.dest.back hs good1.inv fun s hs => h.dest.flags s (hfl s hs)
  have hh : Here C K g g1 c1 W ts R σ m :=
    { h with dest := hd1, fit := fun b hb => h.fit b (by simp [Code.block, Code.HasFn, hb]) }
  refine Sim.sub (ih1 hh) fun s W1 σ1 m1 a1 a2 a3 a4 => ?_
  refine Sim.seqI (r := fun v => v) (a4.loadFieldOp "iter") fun f m2 h2 => ?_
  refine Sim.seq (St.callOp (vs := []) hc (by simp) h2) ?_
  rintro i σ2 m3 ⟨W2, b1, b2, b3, b4⟩
  refine Sim.seqI (r := fun v => v) (b4.loadFieldOp "next") fun next m4 h4 => ?_
  have hle := a1.trans a2 b1
  have hn := Nat.le_trans a2 b3
  have hm2 : Matches g1 W2.seg := by rw [b2]; exact a3
  rw [← b2]
  refine Sim.seq (P := fun _ σ' m' => ∃ r, Kept C K W2 (r :: next :: ts) σ2.store.length σ' m')
    (Sim.loop (I := fun _ => Kept C K W2 (next :: ts) σ2.store.length) ?_ ⟨W2, .refl _ _, rfl, Nat.le_refl _, h4⟩) ?_
  · rintro ⟨⟩ σ3 m5 ⟨W3, l1, l2, l3, l4⟩
    have key := iter_round (W := W3) hc good1 h0 hl gen2 hp h.dest
      (fun b hb => h.fit b (by simp [Code.block, Code.HasFn, hb])) (by rw [l2]; exact hm2) ih2 l4
    rw [l2] at key
    refine Sim.operand (key.post ?_)
    intro o σ' s m' ho
    cases o with
    | none => exact ⟨ho.1, ho.2.imp fun _ h => h.back l1 l2 l3⟩
    | some v => exact ⟨ho.1, ho.2.back l1 l2 l3⟩
  · rintro ⟨⟩ σ3 m5 ⟨r, W3, l1, l2, l3, l4⟩
    refine Sim.step l4.popOp fun m6 h6 => Sim.step h6.popOp fun m7 h7 => .last ?_
    rw [← l2]
    exact Sim.value (hle.trans hn l1) (Nat.le_trans hn l3) (by rw [l2]; exact hm2.congr hv)
      (Sim.op0 (h7.pushes (.plain (v := .unit) trivial) rfl))

end

end Dice.Sim
