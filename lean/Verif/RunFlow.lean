import Verif.RunPieces

/-!
# Runs of the control constructs
-/

namespace Dice

/-! ## Frame rules for the invariant -/

theorem Inv.top {s : CState} (hi : Inv s) {c : Ctx} {rest : List Ctx} (hs : s.stack = c :: rest) : CtxOk s.nextId c :=
  hi c (by rw [hs]; simp)

theorem Inv.setTop {s : CState} (hi : Inv s) {c c' : Ctx} {rest : List Ctx} (hs : s.stack = c :: rest)
    (hc : CtxOk s.nextId c') : Inv { s with stack := c' :: rest } := by
  intro x hx
  rcases List.mem_cons.mp hx with rfl | hx
  · exact hc
  · exact hi x (by rw [hs]; simp [hx])

theorem env_setTop {s : CState} {c c' : Ctx} {rest : List Ctx} (hs : s.stack = c :: rest) (he : c'.erase = c.erase) :
    ({ s with stack := c' :: rest } : CState).env = s.env := by
  simp [CState.env, hs, he]

theorem sk_of {s : CState} {c : Ctx} {rest : List Ctx} (hs : s.stack = c :: rest) : s.sk = c.skels := by
  simp [CState.sk, hs]

/-! ## Conditional skips and branches -/

theorem run_skip {s s1 s2 s3 : CState} (hi : Inv s) {b : Bool} {o : Opcode} {p : Nat} {c : Code} (ho : o = condJump b)
    (h1 : emitJump o s = .ok (p, s1)) (h2 : Run s1 s2 [] c) (h3 : patch p s2 = .ok ((), s3)) :
    Run s s3 [] (.skipIf b c) := by
  subst ho
  obtain ⟨x, rest, x1, hs, rfl, hj, hsk, -, rfl⟩ := emitJump_inv h1
  obtain ⟨E, X, ⟨⟨y, resty, y2, rest2, hs1, hs2, he, hq⟩, hn, hi2⟩, hE, hX⟩ := h2
  cases hs1
  obtain ⟨y0, rest0, y3, hs2', rfl, hp, hsk3, -⟩ := patch_inv h3
  rw [hs2] at hs2'
  cases hs2'
  have hsk1 : ({ s with stack := x1 :: rest } : CState).sk = s.sk := by simp [CState.sk, hs, hsk]
  rw [hsk1] at he hE hX
  refine ⟨E, X, ⟨⟨x, rest, y3, rest2, hs, rfl, Em.skip hj (hi.top hs) hsk he hp hsk3, hq⟩, hn, ?_⟩, hE, hX⟩
  exact hi2.setTop hs2 (hp.ok (hi2.top hs2) hsk3)

theorem run_branch {s s1 s2 s3 s4 s5 s6 : CState} (hi : Inv s) {p q : Nat} {t e : Code}
    (h1 : emitJump .jumpIfFalse s = .ok (p, s1)) (h2 : Run s1 s2 [] t) (h3 : emitJump .jump s2 = .ok (q, s3))
    (h4 : patch p s3 = .ok ((), s4)) (h5 : Inv s4 → Run s4 s5 [] e) (h6 : patch q s5 = .ok ((), s6)) :
    Run s s6 [] (.branch t e) := by
  obtain ⟨x, rest, x1, hs, rfl, hj, hsk, -, rfl⟩ := emitJump_inv h1
  have hle := h2.loopEntry
  have hhl := h2.hasLoop
  have hdo := h2.depthOf
  obtain ⟨E1, X1, ⟨⟨y, resty, x2, rest2, hs1, hs2, he1, hq1⟩, hn1, hi2⟩, hE1, hX1⟩ := h2
  cases hs1
  obtain ⟨y0, rest0, x3, hs2', rfl, hj2, hsk3, -, rfl⟩ := emitJump_inv h3
  rw [hs2] at hs2'
  cases hs2'
  obtain ⟨y0, rest0, x4, hs3', rfl, hp1, hsk4, -⟩ := patch_inv h4
  cases hs3'
  have hi3 : Inv { s2 with stack := x3 :: rest2 } := hi2.setTop hs2 (hj2.ok (hi2.top hs2) hsk3)
  have hi4 : Inv { s2 with stack := x4 :: rest2 } := by
    have := hi3.setTop (c' := x4) rfl (hp1.ok (hi3.top rfl) hsk4)
    exact this
  have h5 := h5 hi4
  have hsk1 : ({ s with stack := x1 :: rest } : CState).sk = s.sk := by simp [CState.sk, hs, hsk]
  have hsk4' : ({ s2 with stack := x4 :: rest2 } : CState).sk = s2.sk := by simp [CState.sk, hs2, hsk3, hsk4]
  obtain ⟨E2, X2, ⟨⟨y, resty, x5, rest5, hs4, hs5, he2, hq2⟩, hn2, hi5⟩, hE2, hX2⟩ := h5
  cases hs4
  rw [hsk4', hle] at he2
  rw [hsk4', hhl] at hE2
  rw [hsk4', hdo] at hX2
  rw [hsk1] at he1 hE1 hX1 he2 hE2 hX2
  obtain ⟨y0, rest0, x6, hs5', rfl, hp2, hsk6, -⟩ := patch_inv h6
  rw [hs5] at hs5'
  cases hs5'
  refine ⟨E1 ++ E2, X1 ++ X2, ⟨⟨x, rest, x6, rest5, hs, rfl,
    Em.fork hj (hi.top hs) hsk he1 hj2 (hi2.top hs2) hsk3 hp1 hsk4 he2 hp2 hsk6, hq1.trans hq2⟩,
    Nat.le_trans hn1 hn2, ?_⟩, ?_, ?_⟩
  · exact hi5.setTop hs5 (hp2.ok (hi5.top hs5) hsk6)
  · intro h; rw [hE1 h, hE2 h]; rfl
  · intro h; rw [hX1 h, hX2 h]; rfl

theorem emitJump_env {s s1 : CState} {o : Opcode} {p : Nat} (hi : Inv s) (h : emitJump o s = .ok (p, s1)) :
    s1.env = s.env ∧ Inv s1 := by
  obtain ⟨x, rest, x1, hs, rfl, hj, hsk, her, -⟩ := emitJump_inv h
  exact ⟨env_setTop hs her, hi.setTop hs (hj.ok (hi.top hs) hsk)⟩

theorem patch_env {s s1 : CState} {p : Nat} (h : patch p s = .ok ((), s1)) : s1.env = s.env := by
  obtain ⟨x, rest, x1, hs, rfl, hp, hsk, her⟩ := patch_inv h
  exact env_setTop hs her

/-! ## Scopes -/

theorem pushScope_facts {s s1 : CState} (hi : Inv s) {kind : ScopeKind} {entry : Option Nat}
    (h : pushScope kind entry s = .ok ((), s1)) :
    ∃ c rest c1, s.stack = c :: rest ∧ s1 = { s with stack := c1 :: rest } ∧ c1.asm = c.asm ∧
      c1.skels = ⟨kind, entry, [], 0, []⟩ :: c.skels ∧ Inv s1 := by
  obtain ⟨c, rest, hs, rfl⟩ := pushScope_inv h
  refine ⟨c, rest, _, hs, rfl, rfl, rfl, hi.setTop hs ?_⟩
  have hok := hi.top hs
  refine ⟨?_, ?_, hok.ids⟩
  · intro x hx
    exact hok.holes x (by simpa [Ctx.skels, ScopeStack.pushScope, pending, ScopeContext.skel] using hx)
  · intro sk hsk hz
    rcases List.mem_cons.mp hsk with rfl | hsk
    · rfl
    · exact hok.calls sk hsk hz

theorem popScope_facts {s s1 : CState} (hi : Inv s) {sc : ScopeContext} (h : popScope s = .ok (sc, s1)) :
    ∃ c rest c1, s.stack = c :: rest ∧ s1 = { s with stack := c1 :: rest } ∧ c1.asm = c.asm ∧
      c.skels = sc.skel :: c1.skels ∧ Inv s1 := by
  obtain ⟨c, rest, tl, hs, ht, rfl⟩ := popScope_inv h
  refine ⟨c, rest, _, hs, rfl, rfl, by simp [Ctx.skels, ht], hi.setTop hs ?_⟩
  have hok := hi.top hs
  refine ⟨?_, ?_, hok.ids⟩
  · intro x hx
    refine hok.holes x ?_
    simp only [Ctx.skels, ht, List.map_cons, pending, List.flatMap_cons, List.mem_append]
    exact .inr hx
  · intro sk hsk hz
    exact hok.calls sk (by simp only [Ctx.skels, ht, List.map_cons]; exact List.mem_cons_of_mem _ hsk) hz

theorem run_block {s s1 s2 s3 : CState} (hi : Inv s) {sc : ScopeContext} {c : Code}
    (h1 : pushScope .block none s = .ok ((), s1)) (h2 : Run s1 s2 [] c) (h3 : popScope s2 = .ok (sc, s3)) :
    Run s s3 [] c := by
  obtain ⟨x, rest, x1, hs, rfl, ha1, hsk1, -⟩ := pushScope_facts hi h1
  obtain ⟨E, X, ⟨⟨y, resty, x2, rest2, hs1, hs2, he, hq⟩, hn, hi2⟩, hE, hX⟩ := h2
  cases hs1
  obtain ⟨y0, rest0, x3, hs2', rfl, ha3, hsk3, hi3⟩ := popScope_facts hi2 h3
  rw [hs2] at hs2'
  cases hs2'
  have hk : ({ s with stack := x1 :: rest } : CState).sk = ⟨.block, none, [], 0, []⟩ :: s.sk := by
    simp [CState.sk, hs, hsk1]
  rw [hk] at he hE hX
  have hX0 : X = [] := hX rfl
  have hle : loopEntry (⟨.block, none, [], 0, []⟩ :: s.sk) = loopEntry s.sk := by
    simp [loopEntry, List.find?_cons]
  rw [hle] at he
  refine ⟨E, [], ⟨⟨x, rest, x3, rest2, hs, rfl, Em.popBlock ha1 hsk1 rfl rfl rfl he hX0 ha3 hsk3, hq⟩, hn, hi3⟩, ?_,
    fun _ => rfl⟩
  intro h
  exact hE (by simpa [hasLoop] using h)

/-! ## Loops -/

theorem Em.fixK {c c' : Ctx} {L E X P} (h : Em c c' (some c.len) L E X P) :
    Em c c' none L E X (fun D p q tb _ te => P D p q tb p te) :=
  ⟨h.pre, h.con, h.sk, h.holes, h.gap, h.dis, fun D H tb _ te h1 h2 h3 h4 _ =>
    h.lay D H tb c.len te h1 h2 h3 h4 (fun _ hj => (Option.some.inj hj))⟩

theorem Em.freeK {c c' : Ctx} {L E X P} (h : Em c c' none L E X P) :
    Em c c' none L E X (fun D p q tb _ te => P D p q tb p te) :=
  ⟨h.pre, h.con, h.sk, h.holes, h.gap, h.dis, fun D H tb _ te h1 h2 h3 h4 _ =>
    h.lay D H tb c.len te h1 h2 h3 h4 (fun _ hj => nomatch hj)⟩

/-- A loop: `c1` is the start with the scope of the loop, `c2` the end of the part inside the scope, `c3` the
same without the scope, `c4` the end of the part after the scope, and `c5` the result of patching the exits. -/
theorem Em.loop {n : Nat} {c c1 c2 c3 c4 c5 : Ctx} {entry : Option Nat} {L E X P Q} (hok : CtxOk n c)
    (ha : c1.asm = c.asm) (hs1 : c1.skels = ⟨.loop, entry, [], 0, []⟩ :: c.skels)
    (hentry : entry = none ∨ entry = some c.len) (h : Em c1 c2 entry L E X P) (hX : X = [])
    (ha3 : c3.asm = c2.asm) {sk2 : Skel} (hs2 : c2.skels = sk2 :: c3.skels)
    (h4 : Em c3 c4 none [] [] [] Q) (hp : sk2.exits = E → Patched c4.asm c5.asm (L ++ E)) (hs5 : c5.skels = c4.skels) :
    Em c c5 none [] [] [] (fun D p q _ _ te => ∃ r, P D p r q p te ∧ Q D r q q p te) := by
  obtain ⟨hex, h3⟩ := Em.popLoop ha hs1 rfl rfl rfl h hX ha3 hs2
  have h3' : Em c c3 none (L ++ E) [] [] (fun D p q tb _ te => P D p q tb p te) := by
    rcases hentry with rfl | rfl
    · exact h3.freeK
    · exact h3.fixK
  have h5 := h3'.seq h4
  simp only [List.append_nil] at h5
  have h6 := Em.closeL hok h5 (hp hex) rfl hs5
  refine h6.freeK.mono ?_
  rintro D p q tb tc te ⟨r, hP, hQ⟩
  exact ⟨r, hP, hQ⟩

theorem Em.monoAt {c c' k L E X P Q} (h : Em c c' k L E X P)
    (hpq : ∀ D q tb tc te, P D c.len q tb tc te → Q D c.len q tb tc te) : Em c c' k L E X Q :=
  ⟨h.pre, h.con, h.sk, h.holes, h.gap, h.dis, fun D H tb tc te h1 h2 h3 h4 h5 =>
    hpq _ _ _ _ _ (h.lay D H tb tc te h1 h2 h3 h4 h5)⟩

theorem emitJumpBack_moves {s s' : CState} (hi : Inv s) {start : Nat} (h : emitJumpBack start s = .ok ((), s')) :
    Moves s s' none [] [] [] (jumpPlace .jump fun _ _ _ => start) ∧ s'.env = s.env := by
  obtain ⟨c, rest, a, hs, hf, rfl⟩ := emitE_inv h
  have hok := hi.top hs
  obtain ⟨⟨off, hd⟩, hc, hem⟩ := Em.back_jump (c' := { c with asm := a }) hok hf rfl
  refine ⟨⟨⟨c, rest, _, rest, hs, rfl, hem, .refl _⟩, Nat.le_refl _, hi.setTop hs (hok.bytes hd rfl ?_)⟩, env_setTop hs rfl⟩
  rw [hc]; exact hok.ids

/-- A jump with a hole kept aside leads where breaks lead. -/
theorem breakIf_run {s s1 : CState} (hi : Inv s) {b : Bool} {o : Opcode} {p : Nat} (ho : o = condJump b)
    (h : emitJump o s = .ok (p, s1)) : Run s s1 [p] (.breakIf b) := by
  subst ho
  obtain ⟨x, rest, x1, hs, rfl, hj, hsk, her, rfl⟩ := emitJump_inv h
  exact ⟨[], [], ⟨⟨x, rest, x1, rest, hs, rfl, (Em.jumpL hj (hi.top hs) hsk).anyK _, .refl _⟩, Nat.le_refl _,
    hi.setTop hs (hj.ok (hi.top hs) hsk)⟩, fun _ => rfl, fun _ => rfl⟩

theorem patchAll_one {s s' : CState} {p : Nat} (h : patch p s = .ok ((), s')) : patchAll [p] s = .ok ((), s') := by
  show M.bind (patch p) (fun _ => patchAll []) s = _
  unfold M.bind
  rw [h]
  rfl

theorem position_len {s s' : CState} {n : Nat} (h : position s = .ok (n, s')) {c : Ctx} {rest : List Ctx}
    (hs : s.stack = c :: rest) : s' = s ∧ n = c.len := by
  obtain ⟨rfl, c', rest', hs', rfl⟩ := position_inv h
  rw [hs] at hs'
  cases hs'
  exact ⟨rfl, rfl⟩

/-- `loop` and `while`: the jump back is inside the scope. -/
theorem run_loop {s s0 s1 s2 s3 s4 s5 s6 : CState} (hi : Inv s) {start : Nat} {L : List Nat} {c : Code} {sc : ScopeContext}
    (h0 : position s = .ok (start, s0)) (h1 : pushScope .loop (some start) s0 = .ok ((), s1)) (h2 : Run s1 s2 L c)
    (h3 : emitJumpBack start s2 = .ok ((), s3)) (h4 : patchAll L s3 = .ok ((), s4)) (h5 : popScope s4 = .ok (sc, s5))
    (h6 : patchAll sc.exitPoints s5 = .ok ((), s6)) :
    Run s s6 [] (.loop c) ∧ s4.env = s2.env ∧ s6.env = s5.env := by
  obtain ⟨rfl, x, rest, hs, rfl⟩ := position_inv h0
  obtain ⟨x', rest', x1, hs', rfl, ha1, hsk1, hi1⟩ := pushScope_facts hi h1
  rw [hs] at hs'
  cases hs'
  have hok := hi.top hs
  obtain ⟨E, X, ⟨⟨y, resty, x2, rest2, hs1, hs2, he, hq⟩, hn, hi2⟩, -, hX⟩ := h2
  cases hs1
  have hk : ({ s0 with stack := x1 :: rest } : CState).sk = ⟨.loop, some x.len, [], 0, []⟩ :: x.skels := by
    simp [CState.sk, hsk1]
  rw [hk] at he hX
  have hX0 : X = [] := hX rfl
  subst hX0
  have hle : loopEntry (⟨.loop, some x.len, [], 0, []⟩ :: x.skels) = some x.len := by simp [loopEntry, List.find?_cons]
  rw [hle] at he
  obtain ⟨⟨⟨y, resty, x3, rest3, hs2', hs3, he3, hq3⟩, hn3, hi3⟩, henv3⟩ := emitJumpBack_moves hi2 h3
  rw [hs2] at hs2'
  cases hs2'
  have he' := he.seq (he3.anyK (some x.len))
  simp only [List.append_nil] at he'
  obtain ⟨x4, rfl, hp4, hsk4, her4⟩ := patchAll_inv L hs3 h4 (fun a ha b hb hne =>
    he'.gap a b (.inl ha) (.inl hb) hne)
  have hi4 : Inv { s3 with stack := x4 :: rest3 } := hi3.setTop hs3 (hp4.ok (hi3.top hs3) hsk4)
  obtain ⟨x4', rest4', x5, hs4', rfl, ha5, hsk5, hi5⟩ := popScope_facts hi4 h5
  cases hs4'
  have hE : sc.exitPoints = E := by
    have h1 := he'.sk
    rw [hsk1, ← hsk4, hsk5, appX_nil] at h1
    simp only [appE, if_true, List.cons.injEq, List.nil_append] at h1
    have := congrArg Skel.exits h1.1
    exact this
  obtain ⟨x6, rfl, hp6, hsk6, her6⟩ := patchAll_inv sc.exitPoints (c := x5) (rest := rest3) rfl h6 (by
    rw [hE]
    exact fun a ha b hb hne => he'.gap a b (.inr (.inl ha)) (.inr (.inl hb)) hne)
  refine ⟨⟨[], [], ⟨⟨x, rest, x6, rest3, hs, rfl, ?_, hq.trans hq3⟩, Nat.le_trans hn hn3, ?_⟩, fun _ => rfl, fun _ => rfl⟩,
    ?_, ?_⟩
  · have hl := Em.loop (c3 := { x5 with asm := x3.asm }) (c4 := { x5 with asm := x3.asm }) (c5 := x6) hok ha1 hsk1
      (.inr rfl) he' rfl rfl (sk2 := sc.skel) (by rw [← hsk4, hsk5]; rfl) (Em.nop rfl rfl) (by
        intro _
        rw [hE] at hp6
        rw [ha5] at hp6
        refine Patched.trans hp4 hp6 ?_
        exact fun a ha b hb hne => he'.gap a b (.inl ha) (.inr (.inl hb)) hne) (by rw [hsk6]; rfl)
    refine (hl.monoAt ?_).anyK _
    rintro D q tb tc te ⟨r, ⟨r', hc, hj, hr⟩, hq⟩
    have hq : r = q := hq
    subst hq
    exact ⟨r', hc, hj, hr⟩
  · have := hi5.setTop (c' := x6) rfl (hp6.ok (hi5.top rfl) hsk6)
    exact this
  · rw [env_setTop hs3 her4, henv3]
  · simp [CState.env, her6]

/-- `for`: the jump back is after the scope. -/
theorem run_for {s s0 s1 s2 s3 s4 s5 s6 s7 : CState} (hi : Inv s) {start : Nat} {L : List Nat} {c1 c2 : Code} {sc : ScopeContext}
    (h0 : position s = .ok (start, s0)) (h1 : pushScope .loop none s0 = .ok ((), s1)) (h2 : Run s1 s2 L c1)
    (h3 : popScope s2 = .ok (sc, s3)) (h4 : Inv s3 → Moves s3 s4 none [] [] [] c2.place)
    (h5 : emitJumpBack start s4 = .ok ((), s5)) (h6 : patchAll L s5 = .ok ((), s6))
    (h7 : patchAll sc.exitPoints s6 = .ok ((), s7)) :
    Run s s7 [] (.loop (.seq c1 c2)) ∧ s7.env = s4.env := by
  obtain ⟨rfl, x, rest, hs, rfl⟩ := position_inv h0
  obtain ⟨x', rest', x1, hs', rfl, ha1, hsk1, hi1⟩ := pushScope_facts hi h1
  rw [hs] at hs'
  cases hs'
  have hok := hi.top hs
  obtain ⟨E, X, ⟨⟨y, resty, x2, rest2, hs1, hs2, he, hq⟩, hn, hi2⟩, -, hX⟩ := h2
  cases hs1
  have hk : ({ s0 with stack := x1 :: rest } : CState).sk = ⟨.loop, none, [], 0, []⟩ :: x.skels := by
    simp [CState.sk, hsk1]
  rw [hk] at he hX
  have hX0 : X = [] := hX rfl
  subst hX0
  have hle : loopEntry (⟨.loop, none, [], 0, []⟩ :: x.skels) = none := by simp [loopEntry, List.find?_cons]
  rw [hle] at he
  obtain ⟨x2', rest2', x3, hs2', rfl, ha3, hsk3, hi3⟩ := popScope_facts hi2 h3
  rw [hs2] at hs2'
  cases hs2'
  obtain ⟨⟨y, resty, x4, rest4, hs3', hs4, he4, hq4⟩, hn4, hi4⟩ := h4 hi3
  cases hs3'
  obtain ⟨⟨⟨y, resty, x5, rest5, hs4', hs5, he5, hq5⟩, hn5, hi5⟩, henv5⟩ := emitJumpBack_moves hi4 h5
  rw [hs4] at hs4'
  cases hs4'
  have he' := he4.seq he5
  simp only [List.append_nil] at he'
  have hE : sc.exitPoints = E := by
    have h1 := he.sk
    rw [hsk1, hsk3, appX_nil] at h1
    simp only [appE, if_true, List.cons.injEq, List.nil_append] at h1
    exact congrArg Skel.exits h1.1
  obtain ⟨x6, rfl, hp6, hsk6, her6⟩ := patchAll_inv L hs5 h6 (fun a ha b hb hne =>
    he.gap a b (.inl ha) (.inl hb) hne)
  obtain ⟨x7, rfl, hp7, hsk7, her7⟩ := patchAll_inv sc.exitPoints (c := x6) (rest := rest5) rfl h7 (by
    rw [hE]
    exact fun a ha b hb hne => he.gap a b (.inr (.inl ha)) (.inr (.inl hb)) hne)
  have hi6 : Inv { s5 with stack := x6 :: rest5 } := hi5.setTop hs5 (hp6.ok (hi5.top hs5) hsk6)
  refine ⟨⟨[], [], ⟨⟨x, rest, x7, rest5, hs, rfl, ?_, (hq.trans hq4).trans hq5⟩,
    Nat.le_trans hn (Nat.le_trans hn4 hn5), ?_⟩, fun _ => rfl, fun _ => rfl⟩, ?_⟩
  · have hl := Em.loop (c3 := x3) (c4 := x5) (c5 := x7) hok ha1 hsk1
      (.inl rfl) he rfl ha3 (sk2 := sc.skel) hsk3 he' (by
        intro _
        rw [hE] at hp7
        refine Patched.trans hp6 hp7 ?_
        exact fun a ha b hb hne => he.gap a b (.inl ha) (.inr (.inl hb)) hne) (by rw [hsk7, hsk6])
    refine (hl.monoAt ?_).anyK _
    rintro D q tb tc te ⟨r, hc1, r', hc2, hj, hr⟩
    exact ⟨r', ⟨r, hc1, hc2⟩, hj, hr⟩
  · have := hi6.setTop (c' := x7) rfl (hp7.ok (hi6.top rfl) hsk7)
    exact this
  · rw [← henv5]
    simp [CState.env, her7, her6, hs5]

/-! ## Chains -/

theorem setCallContext_facts {s s1 : CState} (hi : Inv s) {cc : CallContext} (h : setCallContext cc s = .ok ((), s1))
    (hcc : cc.depth = 0 → cc.exitPoints = []) (hb : ∀ c rest, s.stack = c :: rest → ∀ x ∈ cc.exitPoints, x + 2 ≤ c.len) :
    ∃ c rest c1 sk l, s.stack = c :: rest ∧ s1 = { s with stack := c1 :: rest } ∧ c1.asm = c.asm ∧ c.skels = sk :: l ∧
      c1.skels = { sk with calls := cc.depth, callExits := cc.exitPoints } :: l ∧ Inv s1 := by
  obtain ⟨c, rest, sc, tl, hs, ht, rfl⟩ := setCallContext_inv h
  refine ⟨c, rest, _, sc.skel, tl.map ScopeContext.skel, hs, rfl, rfl, by simp [Ctx.skels, ht], rfl, hi.setTop hs ?_⟩
  have hok := hi.top hs
  have hsk : c.skels = sc.skel :: tl.map ScopeContext.skel := by simp [Ctx.skels, ht]
  refine ⟨?_, ?_, hok.ids⟩
  · intro x hx
    simp only [Ctx.skels, List.map_cons, pending, List.flatMap_cons, List.mem_append, ScopeContext.skel] at hx
    rcases hx with (hx | hx) | hx
    · exact hok.holes x (by rw [hsk]; simp [pending, ScopeContext.skel, hx])
    · exact hb c rest hs x hx
    · refine hok.holes x ?_
      rw [hsk]
      simp only [pending, List.flatMap_cons, List.mem_append]
      exact .inr hx
  · intro sk hm hz
    rcases List.mem_cons.mp hm with rfl | hm
    · exact hcc hz
    · exact hok.calls sk (by rw [hsk]; exact List.mem_cons_of_mem _ hm) hz

theorem topScope_skel {s s1 : CState} {sc : ScopeContext} (h : topScope s = .ok (sc, s1)) :
    s1 = s ∧ ∃ c rest l, s.stack = c :: rest ∧ c.skels = sc.skel :: l := by
  obtain ⟨rfl, c, rest, tl, hs, ht⟩ := topScope_inv h
  exact ⟨rfl, c, rest, tl.map ScopeContext.skel, hs, by simp [Ctx.skels, ht]⟩

/-- Setting the call context aside. -/
theorem run_aside {s s1 s2 s3 : CState} (hi : Inv s) {sc : ScopeContext} {c : Code} (h0 : topScope s = .ok (sc, s))
    (h1 : setCallContext {} s = .ok ((), s1)) (h2 : Inv s1 → Run s1 s2 [] c)
    (h3 : setCallContext sc.callContext s2 = .ok ((), s3)) : Run s s3 [] c := by
  obtain ⟨-, x, rest, l, hs, hsk⟩ := topScope_skel h0
  obtain ⟨x', rest', x1, sk, l', hs', rfl, ha1, hsk', hsk1, hi1⟩ :=
    setCallContext_facts hi h1 (fun _ => rfl) (fun _ _ _ x hx => nomatch hx)
  rw [hs] at hs'
  cases hs'
  rw [hsk] at hsk'
  cases hsk'
  have hok := hi.top hs
  obtain ⟨E, X, ⟨⟨y, resty, x2, rest2, hs1, hs2, he, hq⟩, hn, hi2⟩, hE, hX⟩ := h2 hi1
  cases hs1
  have hk : ({ s with stack := x1 :: rest } : CState).sk = { sc.skel with calls := 0, callExits := [] } :: l := by
    simp [CState.sk, hsk1]
  have hk0 : s.sk = sc.skel :: l := by simp [CState.sk, hs, hsk]
  rw [hk] at he hE hX
  have hX0 : X = [] := hX rfl
  have hlen : x.len ≤ x2.len := by
    have := he.len_le
    simp only [Ctx.len, ha1] at this ⊢
    exact this
  obtain ⟨y0, rest0, x3, sk2, l2, hs2', rfl, ha3, hsk2, hsk3, hi3⟩ := setCallContext_facts hi2 h3
    (fun hz => hok.calls sc.skel (by rw [hsk]; simp) hz)
    (fun c0 rest0 hs0 z hz => by
      rw [hs2] at hs0
      cases hs0
      have := hok.holes z (by rw [hsk]; simp [pending, ScopeContext.skel, hz])
      omega)
  rw [hs2] at hs2'
  cases hs2'
  have hle : loopEntry ({ sc.skel with calls := 0, callExits := [] } :: l) = loopEntry s.sk := by
    rw [hk0]
    simp only [loopEntry, List.find?_cons]
    cases sc.skel.kind == ScopeKind.loop <;> rfl
  rw [hle] at he
  refine ⟨E, [], ⟨⟨x, rest, x3, rest2, hs, rfl, Em.aside hok ha1 hsk hsk1 rfl he hX0 ha3 hsk2 hsk3 rfl, hq⟩, hn, hi3⟩, ?_,
    fun _ => rfl⟩
  intro h
  refine hE ?_
  rw [hk0] at h
  simpa [hasLoop] using h

theorem enterCall_facts {s s1 : CState} (hi : Inv s) (h : enterCall s = .ok ((), s1)) :
    ∃ d, s.env.callDepth = some d ∧ s.env.setCallDepth (d + 1) = some s1.env ∧ depthOf s.sk = some d ∧
      depthOf s1.sk = some (d + 1) ∧ Inv s1 ∧
    ∃ c rest c1 sk l, s.stack = c :: rest ∧ s1 = { s with stack := c1 :: rest } ∧ c1.asm = c.asm ∧ c.skels = sk :: l ∧
      sk.calls = d ∧ c1.skels = { sk with calls := sk.calls + 1 } :: l := by
  unfold enterCall at h
  obtain ⟨sc, s0, h0, h1⟩ := M.bind_inv h
  clear h
  have hd := topScope_depth h0
  obtain ⟨rfl, x, rest, l, hs, hsk⟩ := topScope_skel h0
  have henv := setCallContext_env h1
  have hok := hi.top hs
  obtain ⟨x', rest', x1, sk, l', hs', rfl, ha1, hsk', hsk1, hi1⟩ := setCallContext_facts hi h1
    (fun hz => by simp at hz)
    (fun c0 rest0 hs0 z hz => by
      rw [hs] at hs0
      cases hs0
      exact hok.holes z (by rw [hsk]; simp only [pending, List.flatMap_cons, ScopeContext.skel]; simp at hz; simp [hz]))
  rw [hs] at hs'
  cases hs'
  rw [hsk] at hsk'
  cases hsk'
  refine ⟨_, hd.1, henv, by simp [CState.sk, hs, hsk, depthOf, ScopeContext.skel],
    by simp [CState.sk, hsk1, depthOf], hi1, x, rest, x1, _, l, hs, rfl, ha1, hsk, rfl, hsk1⟩

theorem run_call {s s1 s2 s3 : CState} (hi : Inv s) {c : Code} (h1 : enterCall s = .ok ((), s1)) (h2 : Run s1 s2 [] c)
    (h3 : exitCall s2 = .ok ((), s3)) :
    ∃ d d', s.env.callDepth = some d ∧ s.env.setCallDepth (d + 1) = some s1.env ∧ s2.env.callDepth = some (d' + 1) ∧
      s2.env.setCallDepth d' = some s3.env ∧ Run s s3 [] (if d' = 0 then .chain c else c) := by
  obtain ⟨d, hd, henv, hds, hds1, hi1, x, rest, x1, sk, l, hs, rfl, ha1, hsk, hskd, hsk1⟩ := enterCall_facts hi h1
  have hdo := h2.depthOf
  have hok := hi.top hs
  rw [hds1] at hdo
  obtain ⟨E, X, ⟨⟨y, resty, x2, rest2, hs1, hs2, he, hq⟩, hn, hi2⟩, hE, hX⟩ := h2
  cases hs1
  have hk : ({ s with stack := x1 :: rest } : CState).sk = { sk with calls := sk.calls + 1 } :: l := by
    simp [CState.sk, hsk1]
  have hk0 : s.sk = sk :: l := by simp [CState.sk, hs, hsk]
  have hle : loopEntry ({ sk with calls := sk.calls + 1 } :: l) = loopEntry s.sk := by
    rw [hk0]
    simp only [loopEntry, List.find?_cons]
    cases sk.kind == ScopeKind.loop <;> rfl
  rw [hk] at he hE hX
  rw [hle] at he
  have hE' : hasLoop s.sk = false → E = [] := fun h => hE (by rw [hk0] at h; simpa [hasLoop] using h)
  unfold exitCall at h3
  obtain ⟨sc, s0, h0, h4⟩ := M.bind_inv h3
  clear h3
  have hd2 := topScope_depth h0
  obtain ⟨rfl, x2', rest2', l2, hs2', hsk2⟩ := topScope_skel h0
  rw [hs2] at hs2'
  cases hs2'
  have hok2 := hi2.top hs2
  have hdep : sc.callContext.depth = d + 1 := by
    have : depthOf s0.sk = some sc.callContext.depth := by simp [CState.sk, hs2, hsk2, depthOf, ScopeContext.skel]
    rw [this] at hdo
    exact Option.some.inj hdo
  rw [hdep] at h4 hd2
  cases d with
  | zero =>
    simp only [Nat.zero_add] at h4
    obtain ⟨_, s4, h5, h6⟩ := M.bind_inv h4
    have henv4 := setCallContext_env h5
    obtain ⟨x2', rest2', x4, sk2, l2', hs2', rfl, ha4, hsk2', hsk4, hi4⟩ :=
      setCallContext_facts hi2 h5 (fun _ => rfl) (fun _ _ _ x hx => nomatch hx)
    rw [hs2] at hs2'
    cases hs2'
    rw [hsk2] at hsk2'
    cases hsk2'
    have hex : sc.callContext.exitPoints = X := by
      have h1 := he.sk
      rw [hsk2, hsk1] at h1
      have hce : sk.callExits = [] := hok.calls sk (by rw [hsk]; simp) hskd
      by_cases hkl : sk.kind = .loop
      · simp only [appE, appX, hkl, if_true, List.cons.injEq] at h1
        have := congrArg Skel.callExits h1.1
        simpa [ScopeContext.skel, hce] using this
      · simp only [appE, appX, hkl, if_false, List.cons.injEq] at h1
        have := congrArg Skel.callExits h1.1
        simpa [ScopeContext.skel, hce] using this
    obtain ⟨x5, rfl, hp, hsk5, her⟩ := patchAll_inv sc.callContext.exitPoints (c := x4) (rest := rest2) rfl h6 (by
      rw [hex]
      intro a ha b hb hne
      exact he.gap a b (.inr (.inr ha)) (.inr (.inr hb)) hne)
    refine ⟨0, 0, hd, henv, hd2.1, ?_, ?_⟩
    · rw [henv4]
      congr 1
      simp [CState.env, her]
    · rw [if_pos rfl]
      refine ⟨E, [], ⟨⟨x, rest, x5, rest2, hs, rfl, ?_, hq⟩, hn, ?_⟩, hE', fun _ => rfl⟩
      · refine (Em.chain hok ha1 hsk hsk1 hskd (by rw [hskd]) he (c3 := x5) (s2 := sc.skel) (l2 := l2) ?_ hsk2
          (hsk5.trans hsk4) rfl).mono fun D p q tb tc te h => h
        rw [← ha4]
        exact hp
      · have := hi4.setTop (c' := x5) rfl (hp.ok (hi4.top rfl) hsk5)
        exact this
  | succ d =>
    simp only at h4
    have henv4 := setCallContext_env h4
    obtain ⟨x2', rest2', x4, sk2, l2', hs2', rfl, ha4, hsk2', hsk4, hi4⟩ :=
      setCallContext_facts hi2 h4 (fun hz => by simp at hz)
        (fun c0 rest0 hs0 z hz => by
          rw [hs2] at hs0
          cases hs0
          exact hok2.holes z (by rw [hsk2]; simp only [pending, List.flatMap_cons, ScopeContext.skel]; simp at hz; simp [hz]))
    rw [hs2] at hs2'
    cases hs2'
    rw [hsk2] at hsk2'
    cases hsk2'
    refine ⟨d + 1, d + 1, hd, henv, hd2.1, henv4, ?_⟩
    rw [if_neg (by omega)]
    refine ⟨E, X, ⟨⟨x, rest, x4, rest2, hs, rfl, Em.link ha1 hsk hsk1 rfl he ha4 hsk2 hsk4 ?_, hq⟩, hn, hi4⟩, hE', ?_⟩
    · simp [ScopeContext.skel, hdep]
    · intro h
      rw [hds] at h
      simp at h

/-! ## Jumps out of loops and chains -/

theorem addLoopExitPoint_skels {st st' : ScopeStack} {p : Nat} (h : st.addLoopExitPoint p = some st') :
    st'.stack.map ScopeContext.skel = appE [p] (st.stack.map ScopeContext.skel) ∧
    st'.erase = st.erase ∧ hasLoop (st.stack.map ScopeContext.skel) = true := by
  unfold ScopeStack.addLoopExitPoint at h
  cases hm : ScopeStack.modifyFirstOfKind .loop (fun c => { c with exitPoints := c.exitPoints ++ [p] }) st.stack with
  | none => rw [hm] at h; cases h
  | some l =>
    rw [hm] at h
    cases h
    have key : ∀ (l l' : List ScopeContext), ScopeStack.modifyFirstOfKind .loop
        (fun c => { c with exitPoints := c.exitPoints ++ [p] }) l = some l' →
        l'.map ScopeContext.skel = appE [p] (l.map ScopeContext.skel) ∧
        l'.map ScopeContext.erase = l.map ScopeContext.erase ∧ hasLoop (l.map ScopeContext.skel) = true := by
      intro l
      induction l with
      | nil => intro l' h; cases h
      | cons c l ih =>
        intro l' h
        unfold ScopeStack.modifyFirstOfKind at h
        by_cases hk : c.kind = .loop
        · rw [if_pos (by simp [hk])] at h
          cases h
          exact ⟨by simp [appE, ScopeContext.skel, hk], by simp [ScopeContext.erase], by
            simp [hasLoop, ScopeContext.skel, hk]⟩
        · rw [if_neg (by simp [hk])] at h
          cases hr : ScopeStack.modifyFirstOfKind .loop (fun c => { c with exitPoints := c.exitPoints ++ [p] }) l with
          | none => rw [hr] at h; cases h
          | some l2 =>
            rw [hr] at h
            cases h
            obtain ⟨h1, h2, h3⟩ := ih l2 hr
            refine ⟨?_, by simp [h2], ?_⟩
            · simp only [List.map_cons, appE, h1]
              rw [if_neg (by simpa [ScopeContext.skel] using hk)]
            · simp only [hasLoop, List.map_cons, List.any_cons] at h3 ⊢
              rw [h3]; simp
    obtain ⟨h1, h2, h3⟩ := key _ _ hm
    exact ⟨h1, by simp [ScopeStack.erase, h2], h3⟩

theorem inContextOf_erase (st : ScopeStack) : st.erase.inContextOf .loop = st.inContextOf .loop := by
  simp only [ScopeStack.inContextOf, ScopeStack.firstOfKind, ScopeStack.erase, List.find?_map, Option.isSome_map]
  rfl

theorem entryPoint_erase (st : ScopeStack) : (st.erase.entryPoint .loop).isSome = (st.entryPoint .loop).isSome := by
  have key : ∀ l : List ScopeContext, (List.find? (fun c => c.kind == ScopeKind.loop) (l.map ScopeContext.erase)) =
      (List.find? (fun c => c.kind == ScopeKind.loop) l).map ScopeContext.erase := by
    intro l
    rw [List.find?_map]
    rfl
  simp only [ScopeStack.entryPoint, ScopeStack.firstOfKind, ScopeStack.erase, key]
  cases List.find? (fun c => c.kind == ScopeKind.loop) st.stack with
  | none => rfl
  | some c => simp [ScopeContext.erase]

theorem entryPoint_skels (st : ScopeStack) : st.entryPoint .loop = loopEntry (st.stack.map ScopeContext.skel) := by
  simp only [ScopeStack.entryPoint, ScopeStack.firstOfKind, loopEntry, List.find?_map]
  have : ((fun s : Skel => s.kind == ScopeKind.loop) ∘ ScopeContext.skel) = fun c : ScopeContext => c.kind == ScopeKind.loop := rfl
  rw [this]
  cases List.find? (fun c : ScopeContext => c.kind == ScopeKind.loop) st.stack <;> rfl

theorem visitBreak_run {s s' : CState} (hi : Inv s) (h : visitBreak s = .ok ((), s')) :
    s.env.inLoop = true ∧ s'.env = s.env ∧ Run s s' [] .brk := by
  unfold visitBreak at h
  obtain ⟨c, s0, h0, h1⟩ := M.bind_inv h
  clear h
  obtain ⟨rfl, rest, hs⟩ := getCtx_inv h0
  split at h1
  · rename_i hl
    obtain ⟨p, s1, h2, h3⟩ := M.bind_inv h1
    obtain ⟨c2, s2, h4, h5⟩ := M.bind_inv h3
    clear h1 h3
    obtain ⟨x, rest', x1, hs', rfl, hj, hsk, her, rfl⟩ := emitJump_inv h2
    rw [hs] at hs'
    cases hs'
    obtain ⟨rfl, rest'', hs1⟩ := getCtx_inv h4
    cases hs1
    cases ha : c2.scopes.addLoopExitPoint (c.len + 1) with
    | none => rw [ha] at h5; exact (M.fail_inv h5).elim
    | some st =>
      rw [ha] at h5
      obtain ⟨c3, rest3, hs3, rfl⟩ := setCtx_inv h5
      cases hs3
      obtain ⟨hsk2, her2, hhl⟩ := addLoopExitPoint_skels ha
      have hskx : ({ c2 with scopes := st } : Ctx).skels = appE [c.len + 1] c.skels := by
        rw [← hsk]; exact hsk2
      have hj' : Jumped c { c2 with scopes := st } .jump := ⟨hj.data, hj.con⟩
      have hok := hi.top hs
      refine ⟨?_, ?_, [c.len + 1], [], ⟨⟨c, rest, _, rest, hs, rfl, (Em.jumpE hj' hok hskx).anyK _, .refl _⟩,
        Nat.le_refl _, hi.setTop hs ⟨?_, ?_, ?_⟩⟩, ?_, fun _ => rfl⟩
      · rw [env_cons hs]
        simp only [Env.inLoop]
        rw [show c.erase.scopes = c.scopes.erase from rfl, inContextOf_erase]
        exact hl
      · refine env_setTop hs ?_
        rw [← her]
        simp only [Ctx.erase, her2]
      · intro z hz
        have hl := hj'.len
        rw [hskx] at hz
        rcases mem_pending_appE hz with hz | hz
        · have := hok.holes z hz; omega
        · simp at hz; omega
      · rw [hskx]
        intro sk hm hz
        have : ∀ (l : List Skel), sk ∈ appE [c.len + 1] l → ∃ sk' ∈ l, sk.calls = sk'.calls ∧ sk.callExits = sk'.callExits := by
          intro l
          induction l with
          | nil => intro h; cases h
          | cons a l ih =>
            intro h
            unfold appE at h
            split at h
            · rcases List.mem_cons.mp h with rfl | h
              · exact ⟨a, by simp, rfl, rfl⟩
              · exact ⟨sk, by simp [h], rfl, rfl⟩
            · rcases List.mem_cons.mp h with rfl | h
              · exact ⟨sk, by simp, rfl, rfl⟩
              · obtain ⟨b, hb, h⟩ := ih h
                exact ⟨b, by simp [hb], h⟩
        obtain ⟨sk', hm', h1, h2⟩ := this _ hm
        rw [h2]
        exact hok.calls sk' hm' (h1 ▸ hz)
      · rw [hj'.con]; exact hok.ids
      · intro hf
        rw [sk_of hs, ← hsk] at hf
        have : hasLoop c2.skels = true := hhl
        rw [this] at hf
        cases hf
  · exact (M.fail_inv h1).elim

theorem visitContinue_run {s s' : CState} (hi : Inv s) (h : visitContinue s = .ok ((), s')) :
    s.env.canContinue = true ∧ s'.env = s.env ∧ Run s s' [] .cont := by
  unfold visitContinue at h
  obtain ⟨c, s0, h0, h1⟩ := M.bind_inv h
  clear h
  obtain ⟨rfl, rest, hs⟩ := getCtx_inv h0
  split at h1
  · cases hep : c.scopes.entryPoint .loop with
    | none => rw [hep] at h1; exact (M.fail_inv h1).elim
    | some start =>
      rw [hep] at h1
      obtain ⟨c', rest', a, hs', hf, rfl⟩ := emitE_inv h1
      rw [hs] at hs'
      cases hs'
      have hok := hi.top hs
      obtain ⟨⟨off, hd⟩, hc, hem⟩ := Em.back_jump (c' := { c with asm := a }) hok hf rfl
      refine ⟨?_, env_setTop hs rfl, [], [], ⟨⟨c, rest, _, rest, hs, rfl, ?_, .refl _⟩,
        Nat.le_refl _, hi.setTop hs (hok.bytes hd rfl ?_)⟩, fun _ => rfl, fun _ => rfl⟩
      · rw [env_cons hs]
        simp only [Env.canContinue]
        rw [show c.erase.scopes = c.scopes.erase from rfl, entryPoint_erase, hep]
        rfl
      · have hle : loopEntry s0.sk = some start := by
          rw [sk_of hs, ← hep, entryPoint_skels]; rfl
        rw [hle]
        refine ⟨hem.pre, hem.con, hem.sk, hem.holes, hem.gap, hem.dis, ?_⟩
        intro D H tb tc te h1 h2 h3 h4 h5
        have h := hem.lay D H tb tc te h1 h2 h3 h4 (fun _ hj => nomatch hj)
        obtain rfl := h5 start rfl
        exact h
      · rw [hc]; exact hok.ids
  · exact (M.fail_inv h1).elim

/-- A conditional exit of the enclosing chain. -/
theorem exitIf_run {s s1 s3 : CState} (hi : Inv s) {sc : ScopeContext} {p : Nat} (hd : depthOf s.sk ≠ some 0)
    (h1 : emitJump .jumpIfFalse s = .ok (p, s1)) (h2 : topScope s1 = .ok (sc, s1))
    (h3 : setCallContext { sc.callContext with exitPoints := sc.callContext.exitPoints ++ [p] } s1 = .ok ((), s3)) :
    s3.env = s.env ∧ Run s s3 [] (.exitIf false) := by
  obtain ⟨x, rest, x1, hs, rfl, hj, hsk, her, rfl⟩ := emitJump_inv h1
  obtain ⟨-, x', rest', l, hs', hsk1⟩ := topScope_skel h2
  cases hs'
  obtain ⟨x', rest', scx, tl, hs', ht', rfl⟩ := setCallContext_inv h3
  cases hs'
  have hscx : scx = sc := by
    obtain ⟨-, x', rest', tl', hs', ht''⟩ := topScope_inv h2
    cases hs'
    rw [ht'] at ht''
    exact (List.cons.inj ht'').1
  subst hscx
  have hok := hi.top hs
  have hl := hj.len
  generalize hx3 : ({ x1 with scopes := { x1.scopes with stack := { scx with callContext :=
    { scx.callContext with exitPoints := scx.callContext.exitPoints ++ [x.len + 1] } } :: tl } } : Ctx) = x3
  have ha3 : x3.asm = x1.asm := by rw [← hx3]
  have hsk1' : x1.skels = scx.skel :: tl.map ScopeContext.skel := by simp [Ctx.skels, ht']
  have hskx : x3.skels = appX [x.len + 1] x.skels := by
    rw [← hsk, hsk1', ← hx3]
    rfl
  have hj' : Jumped x x3 .jumpIfFalse := ⟨by rw [ha3]; exact hj.data, by rw [ha3]; exact hj.con⟩
  refine ⟨?_, [], [x.len + 1], ⟨⟨x, rest, x3, rest, hs, rfl, (Em.jumpX hj' hok hskx).anyK _, .refl _⟩,
    Nat.le_refl _, hi.setTop hs ⟨?_, ?_, ?_⟩⟩, fun _ => rfl, fun h => absurd h hd⟩
  · refine env_setTop hs ?_
    rw [← her, ← hx3]
    simp [Ctx.erase, ScopeStack.erase, ht', ScopeContext.erase]
  · intro z hz
    have hl' := hj'.len
    rw [hskx] at hz
    rcases mem_pending_appX hz with hz | hz
    · have := hok.holes z hz; omega
    · simp at hz; omega
  · rw [hskx, ← hsk, hsk1']
    intro sk hm hz
    simp only [appX] at hm
    rcases List.mem_cons.mp hm with rfl | hm
    · refine absurd ?_ hd
      rw [sk_of hs, ← hsk, hsk1']
      exact congrArg some hz
    · exact hok.calls sk (by rw [← hsk, hsk1']; exact List.mem_cons_of_mem _ hm) hz
  · rw [ha3, hj.con]; exact hok.ids

/-! ## Sequences -/

theorem Run.conv {s s' L c c'} (h : Run s s' L c)
    (hc : ∀ D p q tb tc te, Layout D p q tb tc te c → Layout D p q tb tc te c') : Run s s' L c' := by
  obtain ⟨E, X, hm, h1, h2⟩ := h
  exact ⟨E, X, hm.mono hc, h1, h2⟩

theorem layout_block_append {D : Bytecode} : (xs : List Code) → {ys : List Code} → {p q tb tc te : Nat} →
    Layout D p q tb tc te (.seq (.block xs) (.block ys)) → Layout D p q tb tc te (.block (xs ++ ys))
  | [], _, _, _, _, _, _, ⟨_, h1, h2⟩ => by
    cases h1
    exact h2
  | x :: xs, _, _, _, _, _, _, ⟨r, ⟨r', hx, hxs⟩, hy⟩ => ⟨r', hx, layout_block_append xs ⟨r, hxs, hy⟩⟩

theorem layout_loop_append {D : Bytecode} {xs ys : List Code} {p q tb tc te : Nat}
    (h : Layout D p q tb tc te (.loop (.seq (.block xs) (.block ys)))) : Layout D p q tb tc te (.loop (.block (xs ++ ys))) := by
  obtain ⟨r, h1, h2⟩ := h
  exact ⟨r, layout_block_append xs h1, h2⟩

/-! ## Functions -/

theorem Moves.quiets {s s' k L E X P} (h : Moves s s' k L E X P) {c : Ctx} {rest : List Ctx} {c' : Ctx} {rest' : List Ctx}
    (hs : s.stack = c :: rest) (hs' : s'.stack = c' :: rest') : Quiets rest rest' := by
  obtain ⟨⟨x, r, x', r', h1, h2, -, hq⟩, -, -⟩ := h
  rw [hs] at h1
  rw [hs'] at h2
  cases h1
  cases h2
  exact hq

theorem Quiets.fns {l l' : List Ctx} (h : Quiets l l') {P : List Const → Prop} (hp : ∀ c ∈ l, P c.asm.constants) :
    ∀ c ∈ l', P c.asm.constants := by
  induction h with
  | nil => simp
  | cons h _ ih =>
    intro c hc
    rcases List.mem_cons.mp hc with rfl | hc
    · rw [h.asm]; exact hp _ (by simp)
    · exact ih (fun c hc => hp c (by simp [hc])) c hc

theorem pushCtx_inv {s s1 : CState} (hi : Inv s) {kind : CompilerKind} (h : pushCtx kind s = .ok ((), s1)) :
    s1 = { s with stack := { kind } :: s.stack } ∧ Inv s1 ∧ s1.env = s.env.pushFn kind := by
  unfold pushCtx at h
  cases h
  refine ⟨rfl, ?_, rfl⟩
  intro c hc
  rcases List.mem_cons.mp hc with rfl | hc
  · refine ⟨?_, ?_, ?_⟩
    · intro x hx
      simp [Ctx.skels, ScopeStack.new, pending, ScopeContext.skel] at hx
    · intro sk hsk _
      simp only [Ctx.skels, ScopeStack.new, List.map_cons, List.map_nil, List.mem_singleton] at hsk
      subst hsk
      rfl
    · intro code name id h
      cases h
  · exact hi c hc

/-- Compilation of a function: its bytecode is laid out, and the outer contexts emit nothing. -/
theorem run_fn {s s1 s2 s3 : CState} (hi : Inv s) (hne : ∃ d rest, s.stack = d :: rest) {kind : CompilerKind} {c : Code} {fn : Ctx}
    (h1 : pushCtx kind s = .ok ((), s1)) (h2 : Run s1 s2 [] c) (h3 : popCtx s2 = .ok (fn, s3)) :
    Run s s3 [] .nop ∧ s2.env = fn.erase :: s3.env ∧ FnCode fn.erase c fn.finish ∧ Quiets s.stack s3.stack ∧
      s.nextId ≤ s3.nextId := by
  obtain ⟨rfl, hi1, -⟩ := pushCtx_inv hi h1
  obtain ⟨E, X, hm, hE, hX⟩ := h2
  obtain ⟨⟨y, resty, x2, rest2, hs1, hs2, he, hq⟩, hn, hi2⟩ := hm
  cases hs1
  unfold popCtx at h3
  rw [hs2] at h3
  cases h3
  have hk : ({ s with stack := ({ kind } : Ctx) :: s.stack } : CState).sk = [⟨.block, none, [], 0, []⟩] := rfl
  rw [hk] at he hE hX
  have hE0 : E = [] := hE rfl
  have hX0 : X = [] := hX rfl
  subst hE0
  subst hX0
  refine ⟨?_, by simp [CState.env, hs2], ⟨rfl, rfl, ?_, fun code name id h => ((hi2 _ (by rw [hs2]; simp)).ids code name id h).2⟩, hq, hn⟩
  · obtain ⟨d, rest, hs⟩ := hne
    rw [hs] at hq
    obtain ⟨d', rest', hs'⟩ : ∃ d' rest', rest2 = d' :: rest' := by
      cases hq with
      | cons _ _ => exact ⟨_, _, rfl⟩
    rw [hs'] at hq
    cases hq with
    | cons hc hq => exact .quiet hi hs hs' hc hq hn
  · intro hf
    have := he.lay fn.finish [] 0 0 0 ⟨hf, Nat.le_refl _, fun _ _ _ => rfl, List.prefix_rfl⟩ (fun h hh => nomatch hh)
      (fun h hh => by simp at hh) (fun h hh => nomatch hh) (fun j hj => by simp [Dice.loopEntry, List.find?_cons] at hj)
    exact this

end Dice
