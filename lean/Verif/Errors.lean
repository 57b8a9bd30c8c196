import Verif.Wp
import Verif.Grows
import Verif.StaticProps

/-!
# Why the compiler rejects programs

Every error of the compiler is explained by an expression of the program at its place (`compile_error`).
-/

namespace Dice

section
variable {α β : Type} {n : Nat} {v w : View} {B : CErr → Prop}

/-! ## Names -/

theorem addUpvalue_rest (c : Ctx) (d : UpvalueDescriptor) :
    (c.addUpvalue d).2.rest = c.rest ∧ (c.Fine → (c.addUpvalue d).2.Fine) := by
  unfold Ctx.addUpvalue
  split
  · exact ⟨rfl, id⟩
  · exact ⟨rfl, fun h => ⟨h.ne, h.exits, h.calls, h.entries⟩⟩

theorem resolve_rest {g g' : List Ctx} {x : String} {i : Nat} (h : resolveUpvalue x g = some (i, g')) :
    g'.map Ctx.rest = g.map Ctx.rest ∧ ((∀ c ∈ g, c.Fine) → ∀ c ∈ g', c.Fine) := by
  induction g generalizing i g' with
  | nil => cases h
  | cons cur rest ih =>
    cases rest with
    | nil => cases h
    | cons parent rest =>
      unfold resolveUpvalue at h
      cases hl : parent.scopes.local? x with
      | some v =>
        rw [hl] at h
        simp only [Option.some.injEq, Prod.mk.injEq] at h
        rw [← h.2]
        have hu := addUpvalue_rest cur (.parentLocal v.slot v.isMutable)
        constructor
        · show _ :: _ :: _ = _ :: _ :: _
          rw [hu.1]
          congr 2
          simp only [Ctx.rest, Ctx.calls, ScopeStack.modifyLocal, modifyScopes_calls]
        · intro hf c hc
          rcases List.mem_cons.1 hc with rfl | hc
          · exact hu.2 (hf cur (by simp))
          rcases List.mem_cons.1 hc with rfl | hc
          · exact (hf parent (by simp)).modify _ _
          · exact hf c (by simp [hc])
      | none =>
        rw [hl] at h
        simp only at h
        cases hr : resolveUpvalue x (parent :: rest) with
        | none => rw [hr] at h; cases h
        | some r =>
          obtain ⟨o, pr⟩ := r
          have := ih hr
          rw [hr] at h
          cases pr with
          | nil => cases h
          | cons p' r' =>
            simp only [Option.some.injEq, Prod.mk.injEq] at h
            rw [← h.2]
            generalize hd : UpvalueDescriptor.outer o _ = d at h
            have hu := addUpvalue_rest cur d
            constructor
            · show _ :: _ = _ :: _
              rw [hu.1, this.1]
            · intro hf c hc
              rcases List.mem_cons.1 hc with rfl | hc
              · exact hu.2 (hf cur (by simp))
              · exact this.2 (fun c hc => hf c (List.mem_cons_of_mem _ hc)) c hc

theorem Sees.resolve {s : CState} {R : List (Nat × List Nat × Nat)} (hs : Sees s n v R) {x : String} {i : Nat} {g' : List Ctx}
    (h : resolveUpvalue x s.stack = some (i, g')) : Sees { s with stack := g' } n v R := by
  obtain ⟨h1, h2⟩ := resolve_rest h
  obtain ⟨f1, f2, f3, c, f4, f5, f6, f7⟩ := hs
  refine ⟨h2 f1, (place_resolve h).trans f2, ?_, ?_⟩
  · have := congrArg List.tail h1
    rw [← List.map_tail, ← List.map_tail] at this
    exact this.trans f3
  · have := congrArg List.head? h1
    rw [List.head?_map, List.head?_map, f4] at this
    cases hg : g'.head? with
    | none => rw [hg] at this; cases this
    | some c' =>
      rw [hg] at this
      simp only [Option.map_some, Option.some.injEq, Ctx.rest, Prod.mk.injEq] at this
      exact ⟨c', rfl, by omega, this.2.1.trans f6, this.2.2.trans f7⟩

theorem wp_resolve {x : String} : Wp n (resolve x) v (fun _ _ w => w = v) B := by
  intro s R hs
  unfold resolve
  cases hr : resolveUpvalue x s.stack with
  | none => exact ⟨n, v, Nat.le_refl _, hs, rfl⟩
  | some r =>
    obtain ⟨i, g'⟩ := r
    exact ⟨n, v, Nat.le_refl _, hs.resolve hr, rfl⟩

theorem lookupHere_name {p : Site} {x : String} {m : Name} (h : p.lookupHere x = some m) : m.name = x := by
  cases p with
  | nil => cases h
  | cons f p => simpa using List.find?_some h

theorem vis_ident {x : String} (hB : B .tooManyConstants)
    (hx : ∀ m, v.site.lookupHere x = some m → m.isReady = false → B (.notInitialized x)) : Vis n (visitIdent x) v v B := by
  unfold visitIdent
  refine wp_bind wp_lookup fun r m w hm h => ?_
  obtain ⟨rfl, h⟩ := h
  cases r with
  | some u =>
    dsimp only
    by_cases hi : u.isInitialized = true
    · rw [if_pos hi]; exact vis_emit1
    · rw [if_neg hi]
      have hn : u.name = x := lookupHere_name h
      refine wp_fail ?_
      rw [hn]
      exact hx _ h (Bool.eq_false_iff.2 hi)
  | none =>
    refine wp_bind wp_resolve fun r m' w' hm' e => ?_
    subst e
    cases r with
    | some i => exact vis_emit1
    | none => exact vis_emitConst hB

theorem vis_localType {slot : Nat} {t : Option TypeAnn} (hB : B .tooManyConstants)
    (hx : ∀ u, t = some u → B (.notInitialized u.name)) : Vis n (visitLocalType slot t) v v B := by
  cases t with
  | none => exact vis_skip
  | some t =>
    refine wp_then (vis_ident hB fun _ _ _ => hx t rfl) fun m hm => ?_
    split
    · exact vis_emit1
    · exact vis_emit1

theorem vis_closeUpvalues {vars : List ScopeVar} : Vis n (closeUpvalues vars) v v B := by
  induction vars generalizing n with
  | nil => exact vis_skip
  | cons x xs ih =>
    refine wp_then ih fun m hm => ?_
    split
    · exact vis_emit1
    · exact vis_skip

theorem vis_visitReturn (hB : B .tooManyConstants)
    (hx : ∀ k t, v.site.kind = some k → k.result = some t → B (.notInitialized t.name)) : Vis n visitReturn v v B := by
  unfold visitReturn
  refine wp_bind wp_getCtx fun c m w hm h => ?_
  obtain ⟨rfl, h⟩ := h
  have hk : w.site.kind = some c.kind := by
    cases hs : w.site with
    | nil => rw [hs] at h; cases h
    | cons f p => rw [hs] at h; cases h; rfl
  have typed : ∀ t : TypeAnn, c.kind.result = some t → Vis m (do
      visitIdent t.name
      if t.isNullable then emit .assertTypeOrNullAndReturn else emit .assertTypeAndReturn) w w B := by
    intro t ht
    refine wp_then (vis_ident hB fun _ _ _ => hx _ t hk ht) fun m hm => ?_
    split
    · exact vis_emit
    · exact vis_emit
  split
  · rename_i t hc; exact typed t (by rw [hc]; rfl)
  · rename_i t hc; exact typed t (by rw [hc]; rfl)
  · exact vis_emit

theorem vis_scanExpr (e : Expr) : Vis n (scanExpr e) v { v with site := hoistOne e v.site } B := by
  match e with
  | .fnDecl name _ _ _ =>
    rw [scanExpr, hoistOne]
    exact wp_bind vis_addLocal fun _ _ _ _ h => wp_pure h
  | .classDecl name _ _ =>
    rw [scanExpr, hoistOne]
    exact wp_bind vis_addLocal fun _ _ _ _ h => wp_pure h
  | .exportDecl e => rw [scanExpr, hoistOne]; exact vis_scanExpr e
  | .ident _ | .unit | .null | .bool _ | .int _ | .float _ | .str _ | .anonFn _ _ _ | .object _ | .list _
  | .assign _ _ _ | .unary _ _ | .binary _ _ _ | .is _ _ | .varDecl _ _ _ _ | .opDecl _ _ _ _ | .importDecl _ _ _
  | .ifExpr _ _ _ | .loop _ | .whileLoop _ _ | .forLoop _ _ _ | .break_ | .continue_ | .block _ _ | .return_ _
  | .nullProp _ | .errProp _ | .field _ _ | .superAccess _ _ | .call _ _ | .superCall _ | .index _ _ => exact vis_skip

theorem vis_scanExprs (es : List Expr) : Vis n (scanExprs es) v { v with site := hoist es v.site } B := by
  induction es generalizing n v with
  | nil => exact vis_skip
  | cons e es ih => exact wp_then (vis_scanExpr e) fun m hm => ih

theorem vis_scanItems (es : List Expr) (t : Option Expr) :
    Vis n (scanItems es t) v { v with site := hoist (es ++ t.toList) v.site } B := by
  have happ : ∀ (l : List Expr) p, hoist (l ++ t.toList) p = hoist t.toList (hoist l p) := by
    intro l
    induction l with
    | nil => exact fun _ => rfl
    | cons e l ih => exact fun p => ih _
  unfold scanItems
  rw [happ]
  refine wp_then (vis_scanExprs es) fun m hm => ?_
  cases t with
  | none => exact vis_skip
  | some e => exact vis_scanExpr e

theorem vis_addLocals (xs : List String) :
    Wp n (addLocals xs) v (fun _ _ w => w = { v with site := v.site.declareAll xs }) B := by
  induction xs generalizing n v with
  | nil => exact wp_pure rfl
  | cons x xs ih =>
    unfold Dice.addLocals
    refine wp_bind vis_addLocal fun slot m w hm e => ?_
    subst e
    exact wp_bind ih fun r m' w' hm' e => wp_pure e

theorem vis_fieldLocals {ls : List (String × Nat)} (hB : B .tooManyConstants) : Vis n (emitFieldLocals ls) v v B := by
  induction ls generalizing n with
  | nil => exact vis_skip
  | cons l ls ih =>
    exact wp_then vis_emit1 fun _ _ => wp_then (vis_emitConst hB) fun _ _ => wp_then vis_emit1 fun _ _ =>
      wp_then vis_emit fun _ _ => ih

/-! ## Blocks -/

theorem vis_block {k : BlockKind} {es : List Expr} {t : Option Expr} {x : M Unit} {q : Site}
    (hx : ∀ n, Vis n x ⟨hoist (es ++ t.toList) (v.site.enter none), 0 :: v.calls, v.temps⟩ ⟨q, 0 :: v.calls, v.temps⟩ B) :
    Vis n (inBlock k es t x) v { v with site := q.leave } B := by
  unfold inBlock
  refine wp_calls fun a l hv => ?_
  refine wp_then (vis_pushScope (e := none) (fun _ h => nomatch h)) fun m hm => ?_
  refine wp_then (vis_scanItems es t) fun m hm => ?_
  refine wp_then (hx m) fun m hm => ?_
  have tail : ∀ m, Vis m (do let sc ← topScope; closeUpvalues sc.variables; let _ ← popScope; pure ())
      ⟨q, 0 :: v.calls, v.temps⟩ { v with site := q.leave } B := by
    intro m
    refine wp_bind wp_topScope fun sc m w hm h => ?_
    obtain ⟨rfl, -, -⟩ := h
    refine wp_then vis_closeUpvalues fun m hm => ?_
    refine wp_bind (wp_popScope (by show 0 :: v.calls = _; rw [hv])) fun sc m w hm h => ?_
    obtain ⟨rfl, -⟩ := h
    refine wp_pure ?_
    rw [← hv]
  cases k with
  | loop => exact wp_then vis_emit fun m hm => tail m
  | block => exact tail m

/-! ## Functions -/

theorem vis_params {args : List FnArg} (hB : B .tooManyConstants)
    (hx : ∀ a ∈ args, ∀ t, a.type_ = some t → B (.notInitialized t.name)) :
    Vis n (visitParams args) v { v with site := v.site.declareAll (args.map (·.name)) } B := by
  induction args generalizing n v with
  | nil => exact vis_skip
  | cons a args ih =>
    unfold visitParams
    refine wp_bind vis_addLocal fun slot m w hm e => ?_
    subst e
    refine wp_then (vis_localType hB (hx a (List.mem_cons_self ..))) fun m hm => ?_
    exact ih fun b hb => hx b (List.mem_cons_of_mem _ hb)

theorem vis_argDecls {k : FnKind} {args : List FnArg} (hB : B .tooManyConstants)
    (hx : ∀ a ∈ args, ∀ t, a.type_ = some t → B (.notInitialized t.name)) :
    Vis n (visitArgDecls k args) v { v with site := declareParams k args v.site } B := by
  unfold visitArgDecls declareParams
  cases k with
  | function =>
    refine wp_bind vis_addLocal fun slot m w hm e => ?_
    subst e
    exact vis_params hB hx
  | staticMethod =>
    refine wp_bind vis_addLocal fun slot m w hm e => ?_
    subst e
    exact vis_params hB hx
  | method => exact vis_params hB hx
  | constructor => exact vis_params hB hx

theorem wp_fn {k : CompilerKind} {x : M Unit}
    (hx : Wp 0 x ⟨⟨k, [{}]⟩ :: v.site, [0], 0⟩ (fun _ _ w => w.site.tail = v.site) B) :
    Wp n (pushCtx k >>= fun _ => x >>= fun _ => popCtx) v (fun _ _ w => w = v) B := by
  intro s R hs
  obtain ⟨f1, f2, f3, c, f4, f5, f6, f7⟩ := hs
  have hin : Sees { s with stack := ({ kind := k } : Ctx) :: s.stack } 0 ⟨⟨k, [{}]⟩ :: v.site, [0], 0⟩ (s.stack.map Ctx.rest) := by
    refine ⟨?_, ?_, rfl, { kind := k }, rfl, Nat.zero_le _, rfl, rfl⟩
    · intro d hd
      rcases List.mem_cons.1 hd with rfl | hd
      · refine ⟨by simp [ScopeStack.new], ?_, ?_, ?_⟩
        all_goals
          intro sc hsc
          have : sc = { kind := .block } := by simpa [ScopeStack.new] using hsc
          subst this
          intro _ h
          cases h
      · exact f1 d hd
    · rw [← f2]; rfl
  have := hx _ _ hin
  have he : (pushCtx k >>= fun _ => x >>= fun _ => popCtx) s =
      M.bind x (fun _ => popCtx) { s with stack := ({ kind := k } : Ctx) :: s.stack } := rfl
  rw [he]
  unfold M.bind
  cases hc : x { s with stack := ({ kind := k } : Ctx) :: s.stack } with
  | error e => rw [hc] at this; exact this
  | ok r =>
    obtain ⟨_, s'⟩ := r
    rw [hc] at this
    obtain ⟨m, w, -, hs', hw⟩ := this
    obtain ⟨g1, g2, g3, d, g4, -⟩ := hs'
    dsimp only
    unfold popCtx
    cases hst : s'.stack with
    | nil => rw [hst] at g4; cases g4
    | cons d' rest =>
      rw [hst] at g1 g2 g3
      have hr : rest.map Ctx.rest = s.stack.map Ctx.rest := g3
      refine ⟨n, v, Nat.le_refl _, ⟨fun e he => g1 e (List.mem_cons_of_mem _ he), ?_, ?_, ?_⟩, rfl⟩
      · rw [← hw, ← g2]; rfl
      · have := congrArg List.tail hr
        rw [← List.map_tail, ← List.map_tail] at this
        exact this.trans f3
      · have := congrArg List.head? hr
        rw [List.head?_map, List.head?_map, f4] at this
        dsimp only
        cases hg : rest.head? with
        | none => rw [hg] at this; cases this
        | some c' =>
          rw [hg] at this
          simp only [Option.map_some, Option.some.injEq, Ctx.rest, Prod.mk.injEq] at this
          exact ⟨c', rfl, by omega, this.2.1.trans f6, this.2.2.trans f7⟩

/-- The errors that the declared types of a function can cause. -/
structure TypesOk (args : List FnArg) (ret : Option TypeAnn) (B : CErr → Prop) : Prop where
  constants : B .tooManyConstants
  args : ∀ a ∈ args, ∀ t, a.type_ = some t → B (.notInitialized t.name)
  ret : ∀ t, ret = some t → B (.notInitialized t.name)

theorem declareAll_visible {x : String} {xs : List String} (hx : x ∈ xs) {f : FnSite} {b : BlockSite} {bs : List BlockSite}
    (hf : f.blocks = b :: bs) {p : Site} : (Site.declareAll xs (f :: p)).lookupHere x ≠ none := by
  induction xs generalizing f b with
  | nil => cases hx
  | cons y ys ih =>
    obtain ⟨k, bs'⟩ := f
    cases hf
    rcases List.mem_cons.1 hx with rfl | hx
    · refine (grows_declareAll ys _).visible ?_
      simp [Site.lookupHere, Site.declare, FnSite.names, findName]
    · exact ih hx rfl

theorem wp_fnBlock {k : FnKind} {args : List FnArg} {ret : Option TypeAnn} {es : List Expr} {t : Option Expr} {x : M Unit} {p q : Site}
    (ht : TypesOk args ret B) (hself : ∀ c, k = .constructor c → hasReceiver args = true)
    (hsuper : k = .constructor .derived → startsWithSuperCall es t = false → B .newMustCallSuper)
    (hg : Grows (hoist (es ++ t.toList) (declareParams k args (Site.enter none (⟨fnCompilerKind k ret, [{}]⟩ :: p)))) q)
    (hx : ∀ n, Vis n x ⟨hoist (es ++ t.toList) (declareParams k args (Site.enter none (⟨fnCompilerKind k ret, [{}]⟩ :: p))),
      [0, 0], 0⟩ ⟨q, [0, 0], 0⟩ B) :
    Wp 0 (inFnBlock k args es t x) ⟨⟨fnCompilerKind k ret, [{}]⟩ :: p, [0], 0⟩ (fun _ _ w => w.site.tail = p) B := by
  have hgp : Grows (Site.enter none (⟨fnCompilerKind k ret, [{}]⟩ :: p)) q :=
    ((grows_params ..).trans (grows_hoist ..)).trans hg
  have main : ∀ m, Wp m (do
      pushScope .block none
      visitArgDecls k args
      scanItems es t
      x
      let sc ← topScope
      closeUpvalues sc.variables
      visitFnEnd k
      let _ ← popScope
      pure ()) ⟨⟨fnCompilerKind k ret, [{}]⟩ :: p, [0], 0⟩ (fun _ _ w => w.site.tail = p) B := by
    intro m
    refine wp_then (vis_pushScope (e := none) (fun _ h => nomatch h)) fun m hm => ?_
    refine wp_then (vis_argDecls ht.constants ht.args) fun m hm => ?_
    refine wp_then (vis_scanItems es t) fun m hm => ?_
    refine wp_then (hx m) fun m hm => ?_
    refine wp_bind wp_topScope fun sc m w hm h => ?_
    obtain ⟨rfl, -, -⟩ := h
    refine wp_then vis_closeUpvalues fun m hm => ?_
    refine wp_then (w := ⟨q, [0, 0], 0⟩) ?_ fun m hm => ?_
    · have hret : Vis m visitReturn ⟨q, [0, 0], 0⟩ ⟨q, [0, 0], 0⟩ B := by
        refine vis_visitReturn ht.constants fun k' t' hk hr => ?_
        have hk : q.kind = some k' := hk
        rw [hgp.kind] at hk
        cases hk
        refine ht.ret t' ?_
        cases k <;> simp [fnCompilerKind, CompilerKind.result] at hr <;> exact hr
      unfold visitFnEnd
      cases k with
      | constructor c =>
        refine wp_bind wp_lookup fun r m w hm h => ?_
        obtain ⟨rfl, h⟩ := h
        cases r with
        | some u => exact wp_then vis_emit fun _ _ => wp_then vis_emit1 fun _ _ => vis_emit
        | none =>
          refine absurd h ?_
          refine hg.visible ((grows_hoist ..).visible ?_)
          refine declareAll_visible (b := { depth := 1 }) (bs := [{}]) ?_ rfl
          have := hself c rfl
          cases args with
          | nil => cases this
          | cons a as => exact List.mem_cons.2 (.inl (beq_iff_eq.1 this).symm)
      | function => exact hret
      | method => exact hret
      | staticMethod => exact hret
    · refine wp_bind (wp_popScope (a := 0) (b := 0) (l := []) rfl) fun sc m w hm h => ?_
      obtain ⟨rfl, -⟩ := h
      refine wp_pure ?_
      show q.leave.tail = p
      have : q.leave.tail = q.tail := by cases q <;> rfl
      rw [this, hgp.tail]
      rfl
  unfold inFnBlock
  split
  · by_cases h : startsWithSuperCall es t = true
    · rw [if_pos h]; exact main 0
    · rw [if_neg h]; exact wp_fail (hsuper rfl (Bool.eq_false_iff.2 h))
  · exact main 0

end

end Dice
