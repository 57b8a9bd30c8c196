import Verif.Gen
import Verif.AssemblerProps

/-!
# Emission with holes

Bookkeeping for the proof that the compiler lays out the structured code of its source.  While code is being
emitted, some jump operands are still to be written ("holes"): those recorded as exits of loops and chains in
the scopes, and those kept in local variables of the visitors.  `Good D cx H` says that the final bytecode `D`
agrees with what has been emitted in `cx`, the holes aside.  `Em` describes a stretch of emission.
-/

namespace Dice

/-- The parts of a scope that record positions. -/
structure Skel where
  kind : ScopeKind
  entry : Option Nat
  exits : List Nat
  calls : Nat
  callExits : List Nat

def ScopeContext.skel (sc : ScopeContext) : Skel :=
  ⟨sc.kind, sc.entryPoint, sc.exitPoints, sc.callContext.depth, sc.callContext.exitPoints⟩

def Ctx.skels (c : Ctx) : List Skel := c.scopes.stack.map ScopeContext.skel

/-- Recorded holes. -/
def pending (l : List Skel) : List Nat := l.flatMap fun s => s.exits ++ s.callExits

/-- New exits of the innermost loop. -/
def appE (E : List Nat) : List Skel → List Skel
  | [] => []
  | s :: l => if s.kind = .loop then { s with exits := s.exits ++ E } :: l else s :: appE E l

/-- New exits of the chain in the innermost scope. -/
def appX (X : List Nat) : List Skel → List Skel
  | [] => []
  | s :: l => { s with callExits := s.callExits ++ X } :: l

theorem appE_nil (l : List Skel) : appE [] l = l := by
  induction l with
  | nil => rfl
  | cons s l ih => simp [appE, ih]

theorem appX_nil (l : List Skel) : appX [] l = l := by cases l <;> simp [appX]

theorem appE_appE (E E' : List Nat) (l : List Skel) : appE E' (appE E l) = appE (E ++ E') l := by
  induction l with
  | nil => rfl
  | cons s l ih =>
    by_cases h : s.kind = .loop
    · simp [appE, h]
    · simp [appE, h, ih]

theorem appX_appX (X X' : List Nat) (l : List Skel) : appX X' (appX X l) = appX (X ++ X') l := by
  cases l <;> simp [appX]

theorem appX_appE (E X : List Nat) (l : List Skel) : appX X (appE E l) = appE E (appX X l) := by
  cases l with
  | nil => rfl
  | cons s l => by_cases h : s.kind = .loop <;> simp [appE, appX, h]

theorem mem_pending_appE {h : Nat} {E : List Nat} {l : List Skel} (hm : h ∈ pending (appE E l)) :
    h ∈ pending l ∨ h ∈ E := by
  induction l with
  | nil => simp [appE, pending] at hm
  | cons s l ih =>
    by_cases hk : s.kind = .loop
    · simp only [appE, hk, if_true, pending, List.flatMap_cons, List.mem_append] at hm ⊢
      rcases hm with ((hm | hm) | hm) | hm <;> simp [hm]
    · simp only [appE, hk, if_false] at hm
      simp only [pending, List.flatMap_cons, List.mem_append] at hm ⊢
      rcases hm with (hm | hm) | hm
      · simp [hm]
      · simp [hm]
      · rcases ih hm with h | h
        · simp only [pending] at h; exact .inl (.inr h)
        · exact .inr h

theorem mem_pending_appX {h : Nat} {X : List Nat} {l : List Skel} (hm : h ∈ pending (appX X l)) :
    h ∈ pending l ∨ h ∈ X := by
  cases l with
  | nil => simp [appX, pending] at hm
  | cons s l =>
    simp only [appX, pending, List.flatMap_cons, List.mem_append] at hm ⊢
    rcases hm with (hm | hm | hm) | hm <;> simp [hm]

/-- The position of the innermost loop. -/
def loopEntry (l : List Skel) : Option Nat := (l.find? fun s => s.kind == .loop).bind (·.entry)

/-- Whether there is a loop. -/
def hasLoop (l : List Skel) : Bool := l.any fun s => s.kind == .loop

/-- The number of links being compiled in the innermost scope. -/
def depthOf (l : List Skel) : Option Nat := l.head?.map (·.calls)

theorem loopEntry_appE (E : List Nat) (l : List Skel) : loopEntry (appE E l) = loopEntry l := by
  induction l with
  | nil => rfl
  | cons s l ih =>
    by_cases h : s.kind = .loop
    · simp [appE, h, loopEntry]
    · have h' : (s.kind == ScopeKind.loop) = false := by simpa using h
      simp only [appE, h, if_false, loopEntry, List.find?_cons, h'] at ih ⊢
      exact ih

theorem loopEntry_appX (X : List Nat) (l : List Skel) : loopEntry (appX X l) = loopEntry l := by
  cases l with
  | nil => rfl
  | cons s l =>
    simp only [appX, loopEntry, List.find?_cons]
    cases s.kind == ScopeKind.loop <;> rfl

theorem hasLoop_appE (E : List Nat) (l : List Skel) : hasLoop (appE E l) = hasLoop l := by
  induction l with
  | nil => rfl
  | cons s l ih =>
    by_cases h : s.kind = .loop
    · simp [appE, h, hasLoop]
    · simp only [appE, h, if_false, hasLoop, List.any_cons] at ih ⊢
      rw [ih]

theorem hasLoop_appX (X : List Nat) (l : List Skel) : hasLoop (appX X l) = hasLoop l := by
  cases l <;> rfl

theorem depthOf_appE (E : List Nat) (l : List Skel) : depthOf (appE E l) = depthOf l := by
  cases l with
  | nil => rfl
  | cons s l => by_cases h : s.kind = .loop <;> simp [appE, h, depthOf]

theorem depthOf_appX (X : List Nat) (l : List Skel) : depthOf (appX X l) = depthOf l := by
  cases l <;> rfl

/-! ## Agreement of a final bytecode -/

/-- The number of bytes emitted. -/
def Ctx.len (c : Ctx) : Nat := c.asm.data.length

/-- The final bytecode agrees with what has been emitted, holes aside. -/
structure Good (D : Bytecode) (c : Ctx) (H : List Nat) : Prop where
  fits : Fits D
  size : c.len ≤ D.data.length
  agree : ∀ i, i < c.len → (∀ h, h ∈ pending c.skels ∨ h ∈ H → i ≠ h ∧ i ≠ h + 1) →
    D.data[i]? = c.asm.data[i]?
  con : c.asm.constants <+: D.constants

theorem Good.congr {D : Bytecode} {c : Ctx} {H H' : List Nat} (h : Good D c H)
    (hm : ∀ x, x ∈ H ↔ x ∈ H') : Good D c H' :=
  ⟨h.fits, h.size, fun i hi hh => h.agree i hi fun x hx => hh x (hx.imp id (hm x).mp), h.con⟩

/-- Invariant of a context: recorded holes are inside the emitted code, no exits are recorded outside of
chains, ids of functions in the constant pool have been handed out, and these functions keep the limit on captures. -/
structure CtxOk (n : Nat) (c : Ctx) : Prop where
  holes : ∀ h ∈ pending c.skels, h + 2 ≤ c.len
  calls : ∀ s ∈ c.skels, s.calls = 0 → s.callExits = []
  ids : ∀ (code : Bytecode) (name : String) (id : Nat), Const.fn code name id ∈ c.asm.constants → id < n ∧ FewCaptured code

/-- What code may demand of its place: bytecode, start, end, and the targets of breaks, continues and chain
exits. -/
abbrev Place := Bytecode → Nat → Nat → Nat → Nat → Nat → Prop

/-- A stretch of emission from `c` to `c'`.  `k` is the target of continues, `L` are holes kept locally that
are to lead where breaks lead, `E` and `X` are newly recorded exits of the innermost loop and chain. -/
structure Em (c c' : Ctx) (k : Option Nat) (L E X : List Nat) (P : Place) : Prop where
  pre : c.asm.data <+: c'.asm.data
  con : c.asm.constants <+: c'.asm.constants
  sk : c'.skels = appE E (appX X c.skels)
  holes : ∀ h, h ∈ L ∨ h ∈ E ∨ h ∈ X → c.len ≤ h ∧ h + 2 ≤ c'.len
  gap : ∀ x y, x ∈ L ∨ x ∈ E ∨ x ∈ X → y ∈ L ∨ y ∈ E ∨ y ∈ X → x ≠ y → x + 2 ≤ y ∨ y + 2 ≤ x
  dis : ∀ x ∈ E, x ∉ X
  lay : ∀ D H tb tc te, Good D c' (L ++ H) → (∀ h ∈ H, h + 2 ≤ c.len) → (∀ h, h ∈ L ∨ h ∈ E → Lands D h tb) →
    (∀ h ∈ X, Lands D h te) → (∀ j, k = some j → tc = j) → P D c.len c'.len tb tc te

theorem prefix_len {α : Type} {a b : List α} (h : a <+: b) : a.length ≤ b.length := h.length_le

theorem prefix_get {α : Type} {a b : List α} (h : a <+: b) {i : Nat} (hi : i < a.length) : b[i]? = a[i]? := by
  obtain ⟨t, rfl⟩ := h
  exact List.getElem?_append_left hi

theorem Em.len_le {c c' k L E X P} (h : Em c c' k L E X P) : c.len ≤ c'.len := h.pre.length_le

/-- What agrees with the later context agrees with the earlier one. -/
theorem Em.back {c c' k L E X P} (h : Em c c' k L E X P) {D H} (hg : Good D c' (L ++ H)) : Good D c H := by
  have hl := h.len_le
  refine ⟨hg.fits, Nat.le_trans hl hg.size, fun i hi hh => ?_, h.con.trans hg.con⟩
  rw [hg.agree i (Nat.lt_of_lt_of_le hi hl), prefix_get h.pre hi]
  intro x hx
  have hnew : (x ∈ L ∨ x ∈ E ∨ x ∈ X) → i ≠ x ∧ i ≠ x + 1 := fun hx => by
    have := (h.holes x hx).1
    omega
  rcases hx with hx | hx
  · rw [h.sk] at hx
    rcases mem_pending_appE hx with hx | hx
    · rcases mem_pending_appX hx with hx | hx
      · exact hh x (.inl hx)
      · exact hnew (.inr (.inr hx))
    · exact hnew (.inr (.inl hx))
  · rcases List.mem_append.mp hx with hx | hx
    · exact hnew (.inl hx)
    · exact hh x (.inr hx)

theorem Em.mono {c c' k L E X P Q} (h : Em c c' k L E X P)
    (hpq : ∀ D p q tb tc te, P D p q tb tc te → Q D p q tb tc te) : Em c c' k L E X Q :=
  ⟨h.pre, h.con, h.sk, h.holes, h.gap, h.dis, fun D H tb tc te h1 h2 h3 h4 h5 => hpq _ _ _ _ _ _ (h.lay D H tb tc te h1 h2 h3 h4 h5)⟩

/-- Any continue target may be prescribed if none is needed. -/
theorem Em.anyK {c c' L E X P} (h : Em c c' none L E X P) (k : Option Nat) : Em c c' k L E X P :=
  ⟨h.pre, h.con, h.sk, h.holes, h.gap, h.dis, fun D H tb tc te h1 h2 h3 h4 _ =>
    h.lay D H tb tc te h1 h2 h3 h4 (fun _ hj => nomatch hj)⟩

theorem Em.congrL {c c' k L L' E X P} (h : Em c c' k L E X P) (hm : ∀ x, x ∈ L ↔ x ∈ L') :
    Em c c' k L' E X P :=
  ⟨h.pre, h.con, h.sk, fun x hx => h.holes x (hx.imp (hm x).mpr id),
    fun x y hx hy => h.gap x y (hx.imp (hm x).mpr id) (hy.imp (hm y).mpr id), h.dis, fun D H tb tc te h1 h2 h3 h4 h5 =>
    h.lay D H tb tc te (h1.congr fun x => by simp [hm x]) h2 (fun x hx => h3 x (hx.imp (hm x).mp id)) h4 h5⟩

/-- One place after another. -/
def Place.seq (P Q : Place) : Place := fun D p q tb tc te => ∃ r, P D p r tb tc te ∧ Q D r q tb tc te

/-- The place of structured code. -/
def Code.place (c : Code) : Place := fun D p q tb tc te => Layout D p q tb tc te c

theorem Em.seq {c c1 c2 k L1 E1 X1 P1 L2 E2 X2 P2} (h1 : Em c c1 k L1 E1 X1 P1) (h2 : Em c1 c2 k L2 E2 X2 P2) :
    Em c c2 k (L1 ++ L2) (E1 ++ E2) (X1 ++ X2) (P1.seq P2) := by
  have hl1 := h1.len_le
  have hl2 := h2.len_le
  have key : ∀ x, x ∈ L1 ++ L2 ∨ x ∈ E1 ++ E2 ∨ x ∈ X1 ++ X2 →
      (x ∈ L1 ∨ x ∈ E1 ∨ x ∈ X1) ∨ (x ∈ L2 ∨ x ∈ E2 ∨ x ∈ X2) := fun x hx => by
    simp only [List.mem_append] at hx
    rcases hx with (hx | hx) | (hx | hx) | (hx | hx) <;> simp [hx]
  refine ⟨h1.pre.trans h2.pre, h1.con.trans h2.con, ?_, ?_, ?_, ?_, ?_⟩
  · rw [h2.sk, h1.sk, appX_appE, appX_appX, appE_appE]
  · intro x hx
    rcases key x hx with hx | hx
    · have := h1.holes x hx
      omega
    · have := h2.holes x hx
      omega
  · intro x y hx hy hne
    rcases key x hx with hx | hx <;> rcases key y hy with hy | hy
    · exact h1.gap x y hx hy hne
    · have := h1.holes x hx
      have := h2.holes y hy
      omega
    · have := h2.holes x hx
      have := h1.holes y hy
      omega
    · exact h2.gap x y hx hy hne
  · intro x hE hX
    rcases List.mem_append.mp hE with hE | hE <;> rcases List.mem_append.mp hX with hX | hX
    · exact h1.dis x hE hX
    · have := h1.holes x (.inr (.inl hE)); have := h2.holes x (.inr (.inr hX)); omega
    · have := h2.holes x (.inr (.inl hE)); have := h1.holes x (.inr (.inr hX)); omega
    · exact h2.dis x hE hX
  · intro D H tb tc te hg hH hL hX hk
    have hg2 : Good D c2 (L2 ++ (L1 ++ H)) := hg.congr fun x => by
      simp only [List.mem_append]
      constructor
      · rintro ((h | h) | h) <;> simp [h]
      · rintro (h | h | h) <;> simp [h]
    refine ⟨c1.len, h1.lay D H tb tc te (h2.back hg2) hH ?_ ?_ hk,
      h2.lay D (L1 ++ H) tb tc te hg2 ?_ ?_ ?_ hk⟩
    · exact fun x hx => hL x (hx.imp (List.mem_append_left _) (List.mem_append_left _))
    · exact fun x hx => hX x (List.mem_append_left _ hx)
    · intro x hx
      rcases List.mem_append.mp hx with hx | hx
      · exact (h1.holes x (.inl hx)).2
      · have := hH x hx
        omega
    · exact fun x hx => hL x (hx.imp (List.mem_append_right _) (List.mem_append_right _))
    · exact fun x hx => hX x (List.mem_append_right _ hx)

/-- No emission at all. -/
theorem Em.nop {c c' : Ctx} (ha : c'.asm = c.asm) (hs : c'.skels = c.skels) :
    Em c c' none [] [] [] (Code.nop).place := by
  refine ⟨by rw [ha]; exact List.prefix_rfl, by rw [ha]; exact List.prefix_rfl, by rw [hs, appX_nil, appE_nil], ?_, ?_, by simp, ?_⟩
  · intro h hh; simp at hh
  · intro h _ hh; simp at hh
  · intro D H tb tc te _ _ _ _ _
    simp [Code.place, Layout, Ctx.len, ha]

/-! ## Single emissions -/

/-- Bytes written at the end of emitted code survive in the final bytecode. -/
theorem good_new_bytes {n : Nat} {c c' : Ctx} {bs : List UInt8} (hok : CtxOk n c)
    (hd : c'.asm.data = c.asm.data ++ bs) (hs : c'.skels = c.skels) {D H} (hg : Good D c' H)
    (hH : ∀ h ∈ H, h + 2 ≤ c.len) (j : Nat) (hj : j < bs.length) : D.data[c.len + j]? = bs[j]? := by
  have hlen : c'.len = c.len + bs.length := by simp [Ctx.len, hd]
  rw [hg.agree (c.len + j) (by omega), hd]
  · simp only [Ctx.len]
    rw [List.getElem?_append_right (by omega)]
    simp
  · intro h hh
    have : h + 2 ≤ c.len := by
      rcases hh with hh | hh
      · rw [hs] at hh; exact hok.holes h hh
      · exact hH h hh
    omega

theorem Em.bytes {n : Nat} {c c' : Ctx} {bs : List UInt8} {P : Place} (hok : CtxOk n c)
    (hd : c'.asm.data = c.asm.data ++ bs) (hc : c.asm.constants <+: c'.asm.constants) (hs : c'.skels = c.skels)
    (hP : ∀ D : Bytecode, (∀ j : Nat, j < bs.length → D.data[c.len + j]? = bs[j]?) → c'.asm.constants <+: D.constants →
      Fits D → ∀ tb tc te, P D c.len (c.len + bs.length) tb tc te) :
    Em c c' none [] [] [] P := by
  refine ⟨⟨bs, hd.symm⟩, hc, by rw [hs, appX_nil, appE_nil], ?_, ?_, by simp, ?_⟩
  · intro h hh; simp at hh
  · intro h _ hh; simp at hh
  · intro D H tb tc te hg hH _ _ _
    have hlen : c'.len = c.len + bs.length := by simp [Ctx.len, hd]
    rw [hlen]
    exact hP D (fun j hj => good_new_bytes hok hd hs hg hH j hj) hg.con hg.fits tb tc te

theorem CtxOk.bytes {n : Nat} {c c' : Ctx} {bs : List UInt8} (hok : CtxOk n c)
    (hd : c'.asm.data = c.asm.data ++ bs) (hs : c'.skels = c.skels)
    (hids : ∀ (code : Bytecode) (name : String) (id : Nat), Const.fn code name id ∈ c'.asm.constants →
      id < n ∧ FewCaptured code) :
    CtxOk n c' := by
  refine ⟨?_, ?_, hids⟩
  · intro h hh
    rw [hs] at hh
    have := hok.holes h hh
    simp only [Ctx.len, hd, List.length_append] at this ⊢
    omega
  · rw [hs]; exact hok.calls

/-! ## Jumps -/

/-- The place of a jump leading to `t`. -/
def jumpPlace (o : Opcode) (t : Nat → Nat → Nat → Nat) : Place := fun D p q tb tc te =>
  JumpAt D p o (t tb tc te) ∧ q = p + 3

/-- A context after emission of a jump with a hole. -/
structure Jumped (c c' : Ctx) (o : Opcode) : Prop where
  data : c'.asm.data = c.asm.data ++ (o.toByte :: encodeI16 0)
  con : c'.asm.constants = c.asm.constants

theorem Jumped.len {c c' : Ctx} {o : Opcode} (h : Jumped c c' o) : c'.len = c.len + 3 := by
  simp [Ctx.len, h.data, encodeI16_length]

theorem Jumped.pre {c c' : Ctx} {o : Opcode} (h : Jumped c c' o) : c.asm.data <+: c'.asm.data := ⟨_, h.data.symm⟩

/-- The opcode of the jump survives. -/
theorem Jumped.opcode {n : Nat} {c c' : Ctx} {o : Opcode} (h : Jumped c c' o) (hok : CtxOk n c) {D : Bytecode} {H : List Nat}
    (hg : Good D c' H) (hs : ∀ x ∈ pending c'.skels, x ∈ pending c.skels ∨ x = c.len + 1)
    (hH : ∀ x ∈ H, x + 2 ≤ c.len ∨ x = c.len + 1) : D.data[c.len]? = some o.toByte := by
  have hl := h.len
  rw [hg.agree c.len (by omega), h.data]
  · simp [Ctx.len]
  · intro x hx
    have : x + 2 ≤ c.len ∨ x = c.len + 1 := by
      rcases hx with hx | hx
      · exact (hs x hx).imp (hok.holes x) id
      · exact hH x hx
    omega

/-- A jump whose hole is kept locally: it leads where breaks lead. -/
theorem Em.jumpL {n : Nat} {c c' : Ctx} {o : Opcode} (h : Jumped c c' o) (hok : CtxOk n c) (hs : c'.skels = c.skels) :
    Em c c' none [c.len + 1] [] [] (jumpPlace o fun tb _ _ => tb) := by
  have hl := h.len
  refine ⟨h.pre, by rw [h.con]; exact List.prefix_rfl, by rw [hs, appX_nil, appE_nil], ?_, ?_, by simp, ?_⟩
  · intro x hx; simp at hx; omega
  · intro x y hx hy hne; simp at hx hy; omega
  · intro D H tb tc te hg hH hL _ _
    refine ⟨⟨h.opcode hok hg ?_ ?_, hL _ (by simp)⟩, hl⟩
    · intro x hx; rw [hs] at hx; exact .inl hx
    · intro x hx
      rcases List.mem_append.mp hx with hx | hx
      · simp at hx; exact .inr hx
      · exact .inl (hH x hx)

/-- A jump recorded as an exit of the innermost loop. -/
theorem Em.jumpE {n : Nat} {c c' : Ctx} {o : Opcode} (h : Jumped c c' o) (hok : CtxOk n c)
    (hs : c'.skels = appE [c.len + 1] c.skels) :
    Em c c' none [] [c.len + 1] [] (jumpPlace o fun tb _ _ => tb) := by
  have hl := h.len
  refine ⟨h.pre, by rw [h.con]; exact List.prefix_rfl, by rw [hs, appX_nil], ?_, ?_, by simp, ?_⟩
  · intro x hx; simp at hx; omega
  · intro x y hx hy hne; simp at hx hy; omega
  · intro D H tb tc te hg hH hL _ _
    refine ⟨⟨h.opcode hok hg ?_ ?_, hL _ (by simp)⟩, hl⟩
    · intro x hx
      rw [hs] at hx
      exact (mem_pending_appE hx).imp id (by simp)
    · intro x hx; exact .inl (hH x hx)

/-- A jump recorded as an exit of the chain. -/
theorem Em.jumpX {n : Nat} {c c' : Ctx} {o : Opcode} (h : Jumped c c' o) (hok : CtxOk n c)
    (hs : c'.skels = appX [c.len + 1] c.skels) :
    Em c c' none [] [] [c.len + 1] (jumpPlace o fun _ _ te => te) := by
  have hl := h.len
  refine ⟨h.pre, by rw [h.con]; exact List.prefix_rfl, by rw [hs, appE_nil], ?_, ?_, by simp, ?_⟩
  · intro x hx; simp at hx; omega
  · intro x y hx hy hne; simp at hx hy; omega
  · intro D H tb tc te hg hH _ hX _
    refine ⟨⟨h.opcode hok hg ?_ ?_, hX _ (by simp)⟩, hl⟩
    · intro x hx
      rw [hs] at hx
      exact (mem_pending_appX hx).imp id (by simp)
    · intro x hx; exact .inl (hH x hx)

/-! ## Patching -/

/-- The holes `Z` have been patched to lead to the end. -/
structure Patched (a a' : Asm) (Z : List Nat) : Prop where
  con : a'.constants = a.constants
  len : a'.data.length = a.data.length
  same : ∀ i, (∀ h ∈ Z, i ≠ h ∧ i ≠ h + 1) → a'.data[i]? = a.data[i]?
  off : ∀ h ∈ Z, h + 2 ≤ a.data.length ∧ readOffset a'.data h = some (asI16 (a.data.length - h - 2))

theorem patched_one {a a' : Asm} {h : Nat} (hp : a.patchJump h = .ok a') : Patched a a' [h] := by
  unfold Asm.patchJump at hp
  split at hp
  · rename_i hle
    cases hp
    have htl : (a.data.take h).length = h := by simp; omega
    refine ⟨rfl, ?_, ?_, ?_⟩
    · simp [encodeI16_length]; omega
    · intro i hi
      simp only [List.mem_singleton, forall_eq] at hi
      by_cases hlt : i < h
      · rw [List.append_assoc, List.getElem?_append_left (by omega), List.getElem?_take_of_lt hlt]
      · rw [List.getElem?_append_right (by simp [encodeI16_length]; omega)]
        simp only [List.length_append, htl, encodeI16_length, List.getElem?_drop]
        congr 1; omega
    · intro x hx
      simp only [List.mem_singleton] at hx
      subst hx
      refine ⟨hle, ?_⟩
      have := readOffset_encode (a.data.take x) (a.data.drop (x + 2)) (asI16 (a.data.length - x - 2))
        (asI16_range _).1 (asI16_range _).2
      rw [htl] at this
      exact this
  · cases hp

/-- Patching spaced holes one after another. -/
theorem Patched.trans {a a1 a2 : Asm} {Z1 Z2 : List Nat} (h1 : Patched a a1 Z1) (h2 : Patched a1 a2 Z2)
    (hgap : ∀ x ∈ Z1, ∀ y ∈ Z2, x ≠ y → x + 2 ≤ y ∨ y + 2 ≤ x) : Patched a a2 (Z1 ++ Z2) := by
  refine ⟨h2.con.trans h1.con, h2.len.trans h1.len, ?_, ?_⟩
  · intro i hi
    rw [h2.same i fun h hh => hi h (List.mem_append_right _ hh), h1.same i fun h hh => hi h (List.mem_append_left _ hh)]
  · intro h hh
    by_cases hz : h ∈ Z2
    · have := h2.off h hz
      rw [h1.len] at this
      exact this
    · have hz1 : h ∈ Z1 := by
        rcases List.mem_append.mp hh with h | h
        · exact h
        · exact absurd h hz
      obtain ⟨hle, ho⟩ := h1.off h hz1
      refine ⟨hle, ?_⟩
      have hne : ∀ y ∈ Z2, h ≠ y := fun y hy hxy => hz (hxy ▸ hy)
      rw [← ho]
      unfold readOffset
      rw [h2.same h fun y hy => ?_, h2.same (h + 1) fun y hy => ?_]
      · have := hgap h hz1 y hy (hne y hy); omega
      · have := hgap h hz1 y hy (hne y hy); omega

theorem Patched.nil (a : Asm) : Patched a a [] := ⟨rfl, rfl, fun _ _ => rfl, fun _ h => nomatch h⟩

theorem Patched.congr {a a' : Asm} {Z Z' : List Nat} (h : Patched a a' Z) (hm : ∀ x, x ∈ Z ↔ x ∈ Z') :
    Patched a a' Z' :=
  ⟨h.con, h.len, fun i hi => h.same i fun x hx => hi x ((hm x).mp hx), fun x hx => h.off x ((hm x).mpr hx)⟩

theorem offsetPosition_forward {h len : Nat} (hle : h + 2 ≤ len) (hlt : len < 32768) :
    offsetPosition (h + 2) (asI16 ((len : Int) - h - 2)) = len := by
  rw [asI16_of_range _ (by omega) (by omega)]
  unfold offsetPosition
  have : ((h + 2 : Nat) : Int) + ((len : Int) - h - 2) = (len : Int) := by omega
  rw [this]
  have : (len : Int) % 2 ^ 64 = len := by
    apply Int.emod_eq_of_lt <;> omega
  rw [this]
  rfl

/-- What agrees after patching agrees before it, with the patched holes leading to the end. -/
theorem Good.patched {D : Bytecode} {c c' : Ctx} {Z H : List Nat} (hg : Good D c' H)
    (hp : Patched c.asm c'.asm Z)
    (hpend : ∀ x ∈ pending c'.skels, x ∈ pending c.skels ∨ x ∈ Z ∨ x ∈ H)
    (hgap : ∀ x, x ∈ pending c'.skels ∨ x ∈ H → ∀ z ∈ Z, x + 2 ≤ z ∨ z + 2 ≤ x) :
    Good D c (Z ++ H) ∧ ∀ z ∈ Z, Lands D z c.len := by
  have hlen : c'.len = c.len := hp.len
  constructor
  · refine ⟨hg.fits, hlen ▸ hg.size, ?_, hp.con ▸ hg.con⟩
    intro i hi hh
    rw [hg.agree i (by omega), hp.same i]
    · intro z hz
      exact hh z (.inr (List.mem_append_left _ hz))
    · intro x hx
      rcases hx with hx | hx
      · rcases hpend x hx with h | h | h
        · exact hh x (.inl h)
        · exact hh x (.inr (List.mem_append_left _ h))
        · exact hh x (.inr (List.mem_append_right _ h))
      · exact hh x (.inr (List.mem_append_right _ hx))
  · intro z hz
    obtain ⟨hle, ho⟩ := hp.off z hz
    have h1 : D.data[z]? = c'.asm.data[z]? :=
      hg.agree z (by simp only [Ctx.len] at *; omega) fun x hx => by have := hgap x hx z hz; omega
    have h2 : D.data[z + 1]? = c'.asm.data[z + 1]? :=
      hg.agree (z + 1) (by simp only [Ctx.len] at *; omega) fun x hx => by have := hgap x hx z hz; omega
    refine ⟨asI16 ((c.asm.data.length : Int) - z - 2), ?_, ?_⟩
    · rw [← ho]; unfold readOffset; rw [h1, h2]
    · have hf := hg.fits
      cases hf with
      | mk hlt _ _ =>
        have := hg.size
        rw [hlen] at this
        exact offsetPosition_forward hle (by simp only [Ctx.len] at *; omega)

/-! ## Constructs -/

theorem prefix_of_get {α : Type} {a b : List α} (h : ∀ i, i < a.length → b[i]? = a[i]?) : a <+: b := by
  refine List.prefix_iff_getElem?.mpr fun i hi => ?_
  rw [h i hi]
  exact List.getElem?_eq_getElem hi

theorem Em.mem_pending {c c' k L E X P} (h : Em c c' k L E X P) {x : Nat} (hx : x ∈ pending c'.skels) :
    x ∈ pending c.skels ∨ x ∈ E ∨ x ∈ X := by
  rw [h.sk] at hx
  rcases mem_pending_appE hx with hx | hx
  · rcases mem_pending_appX hx with hx | hx
    · exact .inl hx
    · exact .inr (.inr hx)
  · exact .inr (.inl hx)

/-- The emitted code stays in front if holes behind it are patched. -/
theorem Patched.prefix {a a' : Asm} {Z : List Nat} (h : Patched a a' Z) {d : List UInt8} (hd : d <+: a.data)
    (hz : ∀ z ∈ Z, d.length ≤ z) : d <+: a'.data := by
  refine prefix_of_get fun i hi => ?_
  rw [h.same i fun z hzz => ?_, prefix_get hd hi]
  have := hz z hzz
  omega

theorem Em.skip {n : Nat} {c c1 c2 c3 : Ctx} {o : Opcode} {k E X P} (hj : Jumped c c1 o) (hok : CtxOk n c)
    (hs1 : c1.skels = c.skels) (h : Em c1 c2 k [] E X P) (hp : Patched c2.asm c3.asm [c.len + 1])
    (hs3 : c3.skels = c2.skels) :
    Em c c3 k [] E X (fun D p q tb tc te => JumpAt D p o q ∧ P D (p + 3) q tb tc te) := by
  have hl1 := hj.len
  have hl2 := h.len_le
  have hl3 : c3.len = c2.len := hp.len
  have hjl := Em.jumpL hj hok hs1
  refine ⟨hp.prefix (hj.pre.trans h.pre) (by simp [Ctx.len]), by rw [hp.con, ← hj.con]; exact h.con,
    by rw [hs3, h.sk, hs1], ?_, h.gap, h.dis, ?_⟩
  · intro x hx
    have := h.holes x hx
    omega
  · intro D H tb tc te hg hH hL hX hk
    obtain ⟨hg2, hland⟩ := Good.patched (H := H) (by simpa using hg) hp (by rw [hs3]; exact fun x hx => .inl hx) (by
      intro x hx z hz
      simp only [List.mem_singleton] at hz
      subst hz
      have : x + 2 ≤ c.len ∨ c1.len ≤ x := by
        rcases hx with hx | hx
        · rw [hs3] at hx
          rcases h.mem_pending hx with hx | hx
          · rw [hs1] at hx; exact .inl (hok.holes x hx)
          · exact .inr (h.holes x (.inr hx)).1
        · exact .inl (hH x hx)
      omega)
    have hH' : ∀ x ∈ [c.len + 1] ++ H, x + 2 ≤ c1.len := by
      intro x hx
      rcases List.mem_append.mp hx with hx | hx
      · simp at hx; omega
      · have := hH x hx; omega
    refine ⟨⟨?_, hl3 ▸ hland _ (by simp)⟩, ?_⟩
    · refine hj.opcode hok (h.back (H := [c.len + 1] ++ H) (by simpa using hg2)) ?_ ?_
      · intro x hx; rw [hs1] at hx; exact .inl hx
      · intro x hx
        rcases List.mem_append.mp hx with hx | hx
        · simp at hx; exact .inr hx
        · exact .inl (hH x hx)
    · have := h.lay D ([c.len + 1] ++ H) tb tc te (by simpa using hg2) hH' hL hX hk
      rw [hl1] at this
      rw [hl3]
      exact this

theorem Em.fork {n : Nat} {c c1 c2 c3 c4 c5 c6 : Ctx} {o o' : Opcode} {k E1 X1 P1 E2 X2 P2} (hj : Jumped c c1 o)
    (hok : CtxOk n c) (hs1 : c1.skels = c.skels) (h1 : Em c1 c2 k [] E1 X1 P1) (hj2 : Jumped c2 c3 o')
    {n2 : Nat} (hok2 : CtxOk n2 c2)
    (hs3 : c3.skels = c2.skels) (hp1 : Patched c3.asm c4.asm [c.len + 1]) (hs4 : c4.skels = c3.skels)
    (h2 : Em c4 c5 k [] E2 X2 P2) (hp2 : Patched c5.asm c6.asm [c2.len + 1]) (hs6 : c6.skels = c5.skels) :
    Em c c6 k [] (E1 ++ E2) (X1 ++ X2) (fun D p q tb tc te => ∃ r, JumpAt D p o (r + 3) ∧ P1 D (p + 3) r tb tc te ∧
      JumpAt D r o' q ∧ P2 D (r + 3) q tb tc te) := by
  have hl1 := hj.len
  have hl2 := h1.len_le
  have hl3 := hj2.len
  have hl4 : c4.len = c3.len := hp1.len
  have hl5 := h2.len_le
  have hl6 : c6.len = c5.len := hp2.len
  have hjl := Em.jumpL hj2 hok2 hs3
  have key : ∀ x, x ∈ E1 ++ E2 ∨ x ∈ X1 ++ X2 → (x ∈ E1 ∨ x ∈ X1) ∨ (x ∈ E2 ∨ x ∈ X2) := fun x hx => by
    simp only [List.mem_append] at hx
    rcases hx with (hx | hx) | (hx | hx) <;> simp [hx]
  have pend5 : ∀ x ∈ pending c5.skels, x + 2 ≤ c.len ∨ (c1.len ≤ x ∧ x + 2 ≤ c2.len) ∨ c4.len ≤ x := by
    intro x hx
    rcases h2.mem_pending hx with hx | hx
    · rw [hs4, hs3] at hx
      rcases h1.mem_pending hx with hx | hx
      · rw [hs1] at hx; exact .inl (hok.holes x hx)
      · exact .inr (.inl (h1.holes x (.inr hx)))
    · exact .inr (.inr (h2.holes x (.inr hx)).1)
  have pend4 : ∀ x ∈ pending c4.skels, x + 2 ≤ c.len ∨ (c1.len ≤ x ∧ x + 2 ≤ c2.len) := by
    intro x hx
    rw [hs4, hs3] at hx
    rcases h1.mem_pending hx with hx | hx
    · rw [hs1] at hx; exact .inl (hok.holes x hx)
    · exact .inr (h1.holes x (.inr hx))
  refine ⟨?_, ?_, ?_, ?_, ?_, ?_, ?_⟩
  · refine hp2.prefix (List.IsPrefix.trans ?_ h2.pre) (by simp only [Ctx.len] at *; simp; omega)
    exact hp1.prefix ((hj.pre.trans h1.pre).trans hj2.pre) (by simp [Ctx.len])
  · rw [hp2.con, ← hj.con]
    refine h1.con.trans ?_
    rw [← hj2.con, ← hp1.con]
    exact h2.con
  · rw [hs6, h2.sk, hs4, hs3, h1.sk, hs1, appX_appE, appX_appX, appE_appE]
  · intro x hx
    rcases key x (by simpa using hx) with hx | hx
    · have := h1.holes x (.inr hx); omega
    · have := h2.holes x (.inr hx); omega
  · intro x y hx hy hne
    rcases key x (by simpa using hx) with hx | hx <;> rcases key y (by simpa using hy) with hy | hy
    · exact h1.gap x y (.inr hx) (.inr hy) hne
    · have := h1.holes x (.inr hx); have := h2.holes y (.inr hy); omega
    · have := h2.holes x (.inr hx); have := h1.holes y (.inr hy); omega
    · exact h2.gap x y (.inr hx) (.inr hy) hne
  · intro x hE hX
    rcases List.mem_append.mp hE with hE | hE <;> rcases List.mem_append.mp hX with hX | hX
    · exact h1.dis x hE hX
    · have := h1.holes x (.inr (.inl hE)); have := h2.holes x (.inr (.inr hX)); omega
    · have := h2.holes x (.inr (.inl hE)); have := h1.holes x (.inr (.inr hX)); omega
    · exact h2.dis x hE hX
  · intro D H tb tc te hg hH hL hX hk
    obtain ⟨hg5, hland2⟩ := Good.patched (H := H) (by simpa using hg) hp2 (by rw [hs6]; exact fun x hx => .inl hx) (by
      intro x hx z hz
      simp only [List.mem_singleton] at hz
      subst hz
      have : x + 2 ≤ c.len ∨ (c1.len ≤ x ∧ x + 2 ≤ c2.len) ∨ c4.len ≤ x := by
        rcases hx with hx | hx
        · rw [hs6] at hx; exact pend5 x hx
        · exact .inl (hH x hx)
      omega)
    have hg4 : Good D c4 ([c2.len + 1] ++ H) := h2.back (by simpa using hg5)
    obtain ⟨hg3, hland1⟩ := Good.patched (H := [c2.len + 1] ++ H) hg4 hp1 (by rw [hs4]; exact fun x hx => .inl hx) (by
      intro x hx z hz
      simp only [List.mem_singleton] at hz
      subst hz
      have : x + 2 ≤ c.len ∨ (c1.len ≤ x) := by
        rcases hx with hx | hx
        · exact (pend4 x hx).imp id (·.1)
        · rcases List.mem_append.mp hx with hx | hx
          · simp at hx; omega
          · exact .inl (hH x hx)
      omega)
    have hg3' : Good D c3 ([c2.len + 1] ++ ([c.len + 1] ++ H)) := hg3.congr fun x => by
      simp only [List.mem_append]
      constructor
      · rintro (h | h | h) <;> simp [h]
      · rintro (h | h | h) <;> simp [h]
    have hg2 : Good D c2 ([c.len + 1] ++ H) := hjl.back hg3'
    have hg1 : Good D c1 ([c.len + 1] ++ H) := h1.back (by simpa using hg2)
    have hH1 : ∀ x ∈ [c.len + 1] ++ H, x + 2 ≤ c1.len := by
      intro x hx
      rcases List.mem_append.mp hx with hx | hx
      · simp at hx; omega
      · have := hH x hx; omega
    have hH2 : ∀ x ∈ [c2.len + 1] ++ H, x + 2 ≤ c4.len := by
      intro x hx
      rcases List.mem_append.mp hx with hx | hx
      · simp at hx; omega
      · have := hH x hx; omega
    refine ⟨c2.len, ⟨?_, ?_⟩, ?_, ⟨?_, ?_⟩, ?_⟩
    · refine hj.opcode hok hg1 ?_ ?_
      · intro x hx; rw [hs1] at hx; exact .inl hx
      · intro x hx
        rcases List.mem_append.mp hx with hx | hx
        · simp at hx; exact .inr hx
        · exact .inl (hH x hx)
    · rw [← hl3]; exact hland1 _ (by simp)
    · have := h1.lay D ([c.len + 1] ++ H) tb tc te (by simpa using hg2) hH1
        (fun x hx => hL x (.inr (List.mem_append_left _ (by simpa using hx))))
        (fun x hx => hX x (List.mem_append_left _ hx)) hk
      rw [hl1] at this
      exact this
    · refine hj2.opcode hok2 hg3' ?_ ?_
      · intro x hx; rw [hs3] at hx; exact .inl hx
      · intro x hx
        rcases List.mem_append.mp hx with hx | hx
        · simp at hx; exact .inr hx
        · exact .inl (by have := hH1 x hx; omega)
    · rw [hl6]; exact hland2 _ (by simp)
    · have := h2.lay D ([c2.len + 1] ++ H) tb tc te (by simpa using hg5) hH2
        (fun x hx => hL x (.inr (List.mem_append_right _ (by simpa using hx))))
        (fun x hx => hX x (List.mem_append_right _ hx)) hk
      rw [hl4, hl3] at this
      rw [hl6]
      exact this

/-- A backward jump. -/
theorem Em.back_jump {n : Nat} {c c' : Ctx} {start : Nat} (hok : CtxOk n c) (h : c.asm.jumpBack start = .ok c'.asm)
    (hs : c'.skels = c.skels) :
    (∃ off, c'.asm.data = c.asm.data ++ (Opcode.jump.toByte :: encodeI16 off)) ∧ c'.asm.constants = c.asm.constants ∧
    Em c c' none [] [] [] (jumpPlace .jump fun _ _ _ => start) := by
  unfold Asm.jumpBack at h
  simp only [Asm.op, Asm.putU8, List.length_append, List.length_singleton] at h
  split at h
  · cases h
  · rename_i hle
    split at h
    · cases h
    · have h := (Except.ok.inj h).symm
      have hd : c'.asm.data = c.asm.data ++
          (Opcode.jump.toByte :: encodeI16 (-asI16 ((c.asm.data.length + 1 : Nat) - start + 2))) := by
        rw [h]; simp
      have hc : c'.asm.constants = c.asm.constants := by rw [h]
      refine ⟨⟨_, hd⟩, hc, Em.bytes hok hd (by rw [hc]; exact List.prefix_rfl) hs ?_⟩
      intro D hb _ hf tb tc te
      simp only [List.length_cons, encodeI16_length] at hb ⊢
      refine ⟨⟨by simpa using hb 0 (by omega), ?_⟩, rfl⟩
      cases hf with
      | mk hlt _ _ =>
        have hsz : c.len + 2 < D.data.length := by
          have := hb 2 (by omega)
          simp only [encodeI16] at this
          exact (List.getElem?_eq_some_iff.mp this).1
        have hlen : c.len = c.asm.data.length := rfl
        have hx : asI16 ((c.asm.data.length + 1 : Nat) - start + 2) = (c.asm.data.length : Int) + 3 - start := by
          rw [asI16_of_range _ (by omega) (by omega)]
          omega
        rw [hx] at hb
        obtain ⟨hi, lo, he, hdec⟩ := i16_roundtrip (-((c.asm.data.length : Int) + 3 - start)) (by omega) (by omega)
        rw [he] at hb
        have hb1 := hb 1 (by omega)
        have hb2 := hb 2 (by omega)
        refine ⟨-((c.asm.data.length : Int) + 3 - start), ?_, ?_⟩
        · unfold readOffset
          rw [hb1, show c.len + 1 + 1 = c.len + 2 from rfl, hb2]
          simp [hdec]
        · unfold offsetPosition
          have : ((c.len + 1 + 2 : Nat) : Int) + -((c.asm.data.length : Int) + 3 - start) = start := by omega
          rw [this]
          have : (start : Int) % 2 ^ 64 = start := by apply Int.emod_eq_of_lt <;> omega
          rw [this]; rfl

/-- Patching the local holes: breaks lead to the end. -/
theorem Em.closeL {n : Nat} {c c' c'' : Ctx} {k L X P} (hok : CtxOk n c) (h : Em c c' k L [] X P)
    (hp : Patched c'.asm c''.asm L) (hX : X = []) (hs : c''.skels = c'.skels) :
    Em c c'' k [] [] X (fun D p q _ tc te => P D p q q tc te) := by
  subst hX
  have hl := h.len_le
  have hl' : c''.len = c'.len := hp.len
  refine ⟨hp.prefix h.pre fun z hz => (h.holes z (.inl hz)).1, by rw [hp.con]; exact h.con, by rw [hs, h.sk], ?_, ?_, by simp, ?_⟩
  · intro x hx; simp at hx
  · intro x y hx; simp at hx
  · intro D H tb tc te hg hH _ hX hk
    obtain ⟨hg2, hland⟩ := Good.patched (H := H) (by simpa using hg) hp (by rw [hs]; exact fun x hx => .inl hx) (by
      intro x hx z hz
      have := h.holes z (.inl hz)
      have : x + 2 ≤ c.len := by
        rcases hx with hx | hx
        · rw [hs] at hx
          rcases h.mem_pending hx with hx | hx
          · exact hok.holes x hx
          · simp at hx
        · exact hH x hx
      omega)
    rw [hl']
    exact h.lay D H c'.len tc te hg2 hH (fun x hx => hland x (by simpa using hx)) (fun x hx => nomatch hx) hk

/-- Leaving a loop scope: its exits become local holes. -/
theorem Em.popLoop {c c1 c2 c3 : Ctx} {k L E X P} {sk0 : Skel} (ha : c1.asm = c.asm) (hs1 : c1.skels = sk0 :: c.skels)
    (hk0 : sk0.kind = .loop) (hex : sk0.exits = []) (hcx : sk0.callExits = [])
    (h : Em c1 c2 k L E X P) (hX : X = [])
    (ha3 : c3.asm = c2.asm) {sk2 : Skel} (hs2 : c2.skels = sk2 :: c3.skels) :
    sk2.exits = E ∧ Em c c3 k (L ++ E) [] [] P := by
  subst hX
  have hsk := h.sk
  rw [hs1, hs2, appX_nil] at hsk
  simp only [appE, hk0, if_true, hex, List.nil_append, List.cons.injEq] at hsk
  obtain ⟨hsk2, hrest⟩ := hsk
  have hlc : c1.len = c.len := by simp [Ctx.len, ha]
  have hl3 : c3.len = c2.len := by simp [Ctx.len, ha3]
  refine ⟨by rw [hsk2], ?_, ?_, ?_, ?_, ?_, by simp, ?_⟩
  · rw [ha3, ← ha]; exact h.pre
  · rw [ha3, ← ha]; exact h.con
  · rw [hrest, appX_nil, appE_nil]
  · intro x hx
    have : x ∈ L ∨ x ∈ E := by simpa using hx
    have := h.holes x (by rcases this with h | h <;> simp [h])
    omega
  · intro x y hx hy
    have hx : x ∈ L ∨ x ∈ E := by simpa using hx
    have hy : y ∈ L ∨ y ∈ E := by simpa using hy
    exact h.gap x y (by rcases hx with h | h <;> simp [h]) (by rcases hy with h | h <;> simp [h])
  · intro D H tb tc te hg hH hL _ hk
    have hg2 : Good D c2 (L ++ H) := by
      refine ⟨hg.fits, hl3 ▸ hg.size, ?_, ha3 ▸ hg.con⟩
      intro i hi hh
      rw [hg.agree i (by omega), ha3]
      intro x hx
      rcases hx with hx | hx
      · refine hh x (.inl ?_)
        rw [hs2]
        simp only [pending, List.flatMap_cons, List.mem_append] at hx ⊢
        exact .inr hx
      · rcases List.mem_append.mp hx with hx | hx
        · rcases List.mem_append.mp hx with hx | hx
          · exact hh x (.inr (List.mem_append_left _ hx))
          · refine hh x (.inl ?_)
            rw [hs2, hsk2]
            simp [pending, hx]
        · exact hh x (.inr (List.mem_append_right _ hx))
    have := h.lay D H tb tc te hg2 (by rw [hlc]; exact hH)
      (fun x hx => hL x (.inl (List.mem_append.mpr hx))) (fun x hx => nomatch hx) hk
    rw [hl3, ← hlc]
    exact this

/-- Leaving a block scope. -/
theorem Em.popBlock {c c1 c2 c3 : Ctx} {k L E X P} {sk0 : Skel} (ha : c1.asm = c.asm) (hs1 : c1.skels = sk0 :: c.skels)
    (hk0 : sk0.kind = .block) (hex : sk0.exits = []) (hcx : sk0.callExits = [])
    (h : Em c1 c2 k L E X P) (hX : X = [])
    (ha3 : c3.asm = c2.asm) {sk2 : Skel} (hs2 : c2.skels = sk2 :: c3.skels) :
    Em c c3 k L E [] P := by
  subst hX
  have hsk := h.sk
  rw [hs1, hs2, appX_nil] at hsk
  simp only [appE, hk0, reduceCtorEq, if_false, List.cons.injEq] at hsk
  obtain ⟨hsk2, hrest⟩ := hsk
  have hlc : c1.len = c.len := by simp [Ctx.len, ha]
  have hl3 : c3.len = c2.len := by simp [Ctx.len, ha3]
  refine ⟨?_, ?_, ?_, ?_, h.gap, h.dis, ?_⟩
  · rw [ha3, ← ha]; exact h.pre
  · rw [ha3, ← ha]; exact h.con
  · rw [hrest, appX_nil]
  · intro x hx
    have := h.holes x hx
    omega
  · intro D H tb tc te hg hH hL hX hk
    have hg2 : Good D c2 (L ++ H) := by
      refine ⟨hg.fits, hl3 ▸ hg.size, ?_, ha3 ▸ hg.con⟩
      intro i hi hh
      rw [hg.agree i (by omega), ha3]
      intro x hx
      rcases hx with hx | hx
      · refine hh x (.inl ?_)
        rw [hs2]
        simp only [pending, List.flatMap_cons, List.mem_append] at hx ⊢
        exact .inr hx
      · exact hh x (.inr hx)
    have := h.lay D H tb tc te hg2 (by rw [hlc]; exact hH) hL hX hk
    rw [hl3, ← hlc]
    exact this

/-- The call context is set aside during an argument. -/
theorem Em.aside {n : Nat} {c c1 c2 c3 : Ctx} {k L E X P} {s0 s1 s2 s3 : Skel} {l l2 : List Skel} (hok : CtxOk n c)
    (ha : c1.asm = c.asm) (hs : c.skels = s0 :: l) (hs1 : c1.skels = s1 :: l)
    (hs01 : s1 = { s0 with calls := 0, callExits := [] })
    (h : Em c1 c2 k L E X P) (hX : X = []) (ha3 : c3.asm = c2.asm) (hs2 : c2.skels = s2 :: l2)
    (hs3 : c3.skels = s3 :: l2) (hs23 : s3 = { s2 with calls := s0.calls, callExits := s0.callExits }) :
    Em c c3 k L E [] P := by
  subst hX
  have hsk := h.sk
  rw [hs1, hs2, appX_nil] at hsk
  have hlc : c1.len = c.len := by simp [Ctx.len, ha]
  have hl3 : c3.len = c2.len := by simp [Ctx.len, ha3]
  refine ⟨?_, ?_, ?_, ?_, h.gap, h.dis, ?_⟩
  · rw [ha3, ← ha]; exact h.pre
  · rw [ha3, ← ha]; exact h.con
  · rw [hs3, hs, appX_nil]
    by_cases hk : s0.kind = .loop
    · have hk1 : s1.kind = .loop := by rw [hs01]; exact hk
      simp only [appE, hk1, hk, if_true, List.cons.injEq] at hsk ⊢
      obtain ⟨h2, hl⟩ := hsk
      subst hl
      rw [hs23, h2, hs01]
      simp
    · have hk1 : s1.kind ≠ .loop := by rw [hs01]; exact hk
      simp only [appE, hk1, hk, if_false, List.cons.injEq] at hsk ⊢
      obtain ⟨h2, hl⟩ := hsk
      subst hl
      rw [hs23, h2, hs01]
      simp
  · intro x hx
    have := h.holes x hx
    omega
  · intro D H tb tc te hg hH hL hX hk
    have hg2 : Good D c2 (L ++ (s0.callExits ++ H)) := by
      refine ⟨hg.fits, hl3 ▸ hg.size, ?_, ha3 ▸ hg.con⟩
      intro i hi hh
      rw [hg.agree i (by omega), ha3]
      intro x hx
      rcases hx with hx | hx
      · rw [hs3, hs23] at hx
        simp only [pending, List.flatMap_cons, List.mem_append] at hx
        rcases hx with (hx | hx) | hx
        · exact hh x (.inl (by rw [hs2]; simp [pending, hx]))
        · exact hh x (.inr (by simp [hx]))
        · exact hh x (.inl (by rw [hs2]; simp only [pending, List.flatMap_cons, List.mem_append]; exact .inr hx))
      · rcases List.mem_append.mp hx with hx | hx
        · exact hh x (.inr (List.mem_append_left _ hx))
        · exact hh x (.inr (List.mem_append_right _ (List.mem_append_right _ hx)))
    have := h.lay D (s0.callExits ++ H) tb tc te hg2 (by
      intro x hx
      rw [hlc]
      rcases List.mem_append.mp hx with hx | hx
      · exact hok.holes x (by rw [hs]; simp [pending, hx])
      · exact hH x hx) hL hX hk
    rw [hl3, ← hlc]
    exact this

/-- An inner link of a chain. -/
theorem Em.link {c c1 c2 c3 : Ctx} {k L E X P} {s0 s1 s2 s3 : Skel} {l l2 : List Skel}
    (ha : c1.asm = c.asm) (hs : c.skels = s0 :: l) (hs1 : c1.skels = s1 :: l)
    (hs01 : s1 = { s0 with calls := s0.calls + 1 })
    (h : Em c1 c2 k L E X P) (ha3 : c3.asm = c2.asm) (hs2 : c2.skels = s2 :: l2)
    (hs3 : c3.skels = s3 :: l2) (hs23 : s3 = { s2 with calls := s2.calls - 1 }) :
    Em c c3 k L E X P := by
  have hsk := h.sk
  rw [hs1, hs2] at hsk
  have hlc : c1.len = c.len := by simp [Ctx.len, ha]
  have hl3 : c3.len = c2.len := by simp [Ctx.len, ha3]
  refine ⟨?_, ?_, ?_, ?_, h.gap, h.dis, ?_⟩
  · rw [ha3, ← ha]; exact h.pre
  · rw [ha3, ← ha]; exact h.con
  · rw [hs3, hs]
    by_cases hk : s0.kind = .loop
    · have hk1 : s1.kind = .loop := by rw [hs01]; exact hk
      simp only [appE, appX, hk1, hk, if_true, List.cons.injEq] at hsk ⊢
      obtain ⟨h2, hl⟩ := hsk
      subst hl
      rw [hs23, h2, hs01]
      simp
    · have hk1 : s1.kind ≠ .loop := by rw [hs01]; exact hk
      simp only [appE, appX, hk1, hk, if_false, List.cons.injEq] at hsk ⊢
      obtain ⟨h2, hl⟩ := hsk
      subst hl
      rw [hs23, h2, hs01]
      simp
  · intro x hx
    have := h.holes x hx
    omega
  · intro D H tb tc te hg hH hL hX hk
    have hg2 : Good D c2 (L ++ H) := by
      refine ⟨hg.fits, hl3 ▸ hg.size, ?_, ha3 ▸ hg.con⟩
      intro i hi hh
      rw [hg.agree i (by omega), ha3]
      intro x hx
      rcases hx with hx | hx
      · rw [hs3, hs23] at hx
        exact hh x (.inl (by rw [hs2]; exact hx))
      · exact hh x (.inr hx)
    have := h.lay D H tb tc te hg2 (by rw [hlc]; exact hH) hL hX hk
    rw [hl3, ← hlc]
    exact this

/-- A whole chain: its exits are patched to lead to its end. -/
theorem Em.chain {n : Nat} {c c1 c2 c3 : Ctx} {k E X P} {s0 s1 s2 s3 : Skel} {l l2 : List Skel} (hok : CtxOk n c)
    (ha : c1.asm = c.asm) (hs : c.skels = s0 :: l) (hs1 : c1.skels = s1 :: l) (hz : s0.calls = 0)
    (hs01 : s1 = { s0 with calls := 1 })
    (h : Em c1 c2 k [] E X P) (hp : Patched c2.asm c3.asm s2.callExits) (hs2 : c2.skels = s2 :: l2)
    (hs3 : c3.skels = s3 :: l2) (hs23 : s3 = { s2 with calls := 0, callExits := [] }) :
    Em c c3 k [] E [] (fun D p q tb tc _ => P D p q tb tc q) := by
  have hsk := h.sk
  rw [hs1, hs2] at hsk
  have hlc : c1.len = c.len := by simp [Ctx.len, ha]
  have hl3 : c3.len = c2.len := hp.len
  have hl2 := h.len_le
  have hce : s0.callExits = [] := hok.calls s0 (by rw [hs]; simp) hz
  have hX2 : s2.callExits = X ∧ l2 = (appE E (appX X (s1 :: l))).tail ∧
      ({ s2 with calls := 0, callExits := [] } : Skel) :: l2 = appE E (s0 :: l) := by
    by_cases hk : s0.kind = .loop
    · have hk1 : s1.kind = .loop := by rw [hs01]; exact hk
      simp only [appE, appX, hk1, hk, if_true, List.cons.injEq] at hsk ⊢
      obtain ⟨h2, hl⟩ := hsk
      refine ⟨by rw [h2, hs01]; simp [hce], hl, ?_, hl⟩
      rw [h2, hs01]
      cases s0; simp_all
    · have hk1 : s1.kind ≠ .loop := by rw [hs01]; exact hk
      simp only [appE, appX, hk1, hk, if_false, List.cons.injEq] at hsk ⊢
      obtain ⟨h2, hl⟩ := hsk
      refine ⟨by rw [h2, hs01]; simp [hce], hl, ?_, hl⟩
      rw [h2, hs01]
      cases s0; simp_all
  obtain ⟨hX2, -, hsk3⟩ := hX2
  rw [hX2] at hp
  have pend3 : ∀ x ∈ pending c3.skels, x ∈ pending c.skels ∨ x ∈ E := by
    intro x hx
    rw [hs3, hs23, hsk3, ← hs] at hx
    exact mem_pending_appE hx
  refine ⟨?_, ?_, ?_, ?_, ?_, by simp, ?_⟩
  · exact hp.prefix (by rw [← ha]; exact h.pre) fun z hz => by
      have := (h.holes z (.inr (.inr hz))).1
      rw [hlc] at this
      exact this
  · rw [hp.con, ← ha]; exact h.con
  · rw [hs3, hs23, hsk3, hs, appX_nil]
  · intro x hx
    have hx : x ∈ E := by simpa using hx
    have := h.holes x (.inr (.inl hx))
    omega
  · intro x y hx hy
    have hx : x ∈ E := by simpa using hx
    have hy : y ∈ E := by simpa using hy
    exact h.gap x y (.inr (.inl hx)) (.inr (.inl hy))
  · intro D H tb tc te hg hH hL _ hk
    obtain ⟨hg2, hland⟩ := Good.patched (H := H) (by simpa using hg) hp (by
      intro x hx
      refine .inl ?_
      rw [hs3, hs23] at hx
      rw [hs2]
      simp only [pending, List.flatMap_cons, List.mem_append] at hx ⊢
      rcases hx with (hx | hx) | hx
      · exact .inl (.inl hx)
      · cases hx
      · exact .inr hx) (by
      intro x hx z hz
      have hzl := (h.holes z (.inr (.inr hz))).1
      rcases hx with hx | hx
      · rcases pend3 x hx with hx | hx
        · have := hok.holes x hx; omega
        · exact h.gap x z (.inr (.inl hx)) (.inr (.inr hz)) (fun hxz => h.dis x hx (hxz ▸ hz))
      · have := hH x hx; omega)
    have hg2' : Good D c2 ([] ++ H) := by
      refine ⟨hg2.fits, hg2.size, ?_, hg2.con⟩
      intro i hi hh
      refine hg2.agree i hi fun x hx => ?_
      rcases hx with hx | hx
      · exact hh x (.inl hx)
      · rcases List.mem_append.mp hx with hx | hx
        · exact hh x (.inl (by rw [hs2]; simp [pending, hX2, hx]))
        · exact hh x (.inr (by simpa using hx))
    have := h.lay D H tb tc c2.len hg2' (by rw [hlc]; exact hH) hL hland hk
    rw [hl3, ← hlc]
    exact this

end Dice
