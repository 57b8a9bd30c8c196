import Verif.IterProps
import Verif.NativeArray

/-! # C64: loops over iterators, from source -/

namespace Dice

/-- What remains of a loop over an iterator: the last result and the iterator are dropped and the loop yields
unit. -/
inductive DropsIter (L : Res → VM → Prop) : Res → VM → Prop where
  | unit {m1 : VM} {u v : Value} (h : L (.done .normal) m1) (hv : m1.Top v) (hu : m1.drop.Top u) :
      DropsIter L (.done .normal) (m1.drop.drop.pushed .unit)
  | left {m' : VM} {r : Res} (h : L r m') (hr : r ≠ .done .normal) : DropsIter L r m'

theorem each_runs {w : World} {f : Frame} {ups : Option (List Nat)} {c1 c2 : Code} {slot : Nat} {vars : List ScopeVar}
    {m m1 m2 m' : VM} {r : Res} {n : Nat} {u it itf fn : Value} {xs : List Value} {I : List Value → VM → Prop}
    (hq : r.Quiet) (hs : Runs w f ups c1 m (.done .normal) m1) (hu : m1.Top u) (hi : Member w m1.heap u "iter" itf)
    (hc : callFn w n 0 (m1.retop itf) = (.ok (), m2)) (ht : m2.Top it) (hn : Member w m2.heap it "next" fn)
    (hR : RoomAt f slot (m2.retop fn)) (hv : ∀ v ∈ vars, f.cell v.slot < f.stop)
    (hk : KeepsIter w (Runs w f ups c2) (Runs w f ups (closeCode vars)) (f.cell slot) I) (hI : I xs (m2.retop fn)) :
    Runs w f ups (.block [c1, .sym .loadField "iter", .num .call 0, .sym .loadField "next",
        .loop (.block [.num .dup 0, .num .call 0, .num .dup 0, .sym .loadField "is_done", .breakIf true,
          .instr (.fieldToLocal "value" (UInt8.ofNat slot)), .op .pop, c2, .op .pop, closeCode vars]),
        .op .pop, .op .pop, .op .pushUnit]) m r m' ↔
      DropsIter (EachSpec w (CallsTop w) (Runs w f ups c2) (Runs w f ups (closeCode vars)) (f.cell slot) xs (m2.retop fn)) r m' := by
  have key := fun r m' => each_code (w := w) (ups := ups) (r := r) (m' := m') hR hv hk hI
  rw [runs_known (runs_once hs), runs_known (fun r m' => runs_loadField hu hi),
    runs_known (runs_once (runs_call (argc := 0) hc)), runs_known (fun r m' => runs_loadField ht hn), runs_block]
  constructor
  · rintro (⟨h, hr⟩ | ⟨m3, h, h'⟩)
    · exact .left ((key _ _).1 h) hr
    · rcases runs_block.1 h' with ⟨h', hr⟩ | ⟨m4, h4, h'⟩
      · obtain ⟨-, rfl, -⟩ := (runs_pop hq).1 h'
        exact absurd rfl hr
      · obtain ⟨⟨v, hv⟩, -, rfl⟩ := (runs_pop (Res.quiet_done _)).1 h4
        rcases runs_block.1 h' with ⟨h', hr⟩ | ⟨m5, h5, h'⟩
        · obtain ⟨-, rfl, -⟩ := (runs_pop hq).1 h'
          exact absurd rfl hr
        · obtain ⟨⟨u, hu⟩, -, rfl⟩ := (runs_pop (Res.quiet_done _)).1 h5
          obtain ⟨-, rfl, rfl⟩ := (runs_pushUnit hq).1 (runs_block1.1 h')
          exact .unit ((key _ _).1 h) hv hu
  · intro hd
    cases hd with
    | @unit m3 _ _ h hv hu =>
      refine .inr ⟨_, (key _ _).2 h, runs_block.2 (then_right ((runs_pop (Res.quiet_done _)).2 ⟨⟨_, hv⟩, rfl, rfl⟩)
        (runs_block.2 (then_right ((runs_pop (Res.quiet_done _)).2 ⟨⟨_, hu⟩, rfl, rfl⟩)
        (runs_block1.2 ((runs_pushUnit hq).2 ⟨?_, rfl, rfl⟩)))))⟩
      have h1 := hv.pos
      have h2 := hv.max
      show m3.ptr - 1 - 1 < maxStack
      omega
    | left h hr => exact .inl ⟨(key _ _).2 h, hr⟩

/-- **C64.**  A loop over an iterator.  Once the source is computed and its `iter()` was called, the body is run for
each of the values that the iterator is about to give, in order, with the loop variable set to each of them, until
the iterator is done or the body leaves the loop.

Assumed: the body leaves one value, the iterator and the stack alone (`KeepsIter`), the frame is large enough and
there is room on the stack. -/
theorem iterator_loop_visits_partial {g g' : Env} {x : String} {source body : Expr} {c : Code}
    (h : Gen g (.expr (.forLoop x source body)) c g')
    (hns : ∀ a b, source ≠ .binary .rangeInclusive a b ∧ source ≠ .binary .rangeExclusive a b) :
    ∃ cs cb slot vars, (∃ g1 g2, Gen g1 (.expr source) cs g2) ∧ (∃ g1 g2, Gen g1 (.expr body) cb g2) ∧
      ∀ {w : World} {f : Frame} {ups : Option (List Nat)} {m m1 m2 m' : VM} {r : Res} {n : Nat} {u it itf fn : Value}
        {xs : List Value} {I : List Value → VM → Prop}, r.Quiet →
        Runs w f ups cs m (.done .normal) m1 → m1.Top u → Member w m1.heap u "iter" itf →
        callFn w n 0 (m1.retop itf) = (.ok (), m2) → m2.Top it → Member w m2.heap it "next" fn →
        RoomAt f slot (m2.retop fn) → (∀ v ∈ vars, f.cell v.slot < f.stop) →
        KeepsIter w (Runs w f ups cb) (Runs w f ups (closeCode vars)) (f.cell slot) I → I xs (m2.retop fn) →
        (Runs w f ups c m r m' ↔
          DropsIter (EachSpec w (CallsTop w) (Runs w f ups cb) (Runs w f ups (closeCode vars)) (f.cell slot) xs
            (m2.retop fn)) r m') := by
  cases h with
  | chain he => cases he
  | rangeLoop hop => rcases hop with rfl | rfl <;> exact absurd rfl (by first | exact (hns _ _).1 | exact (hns _ _).2)
  | @forLoop _ g1 g2 g3 g4 _ _ _ _ c1 c2 slot vars _ h1 _ _ h2 _ =>
    refine ⟨c1, c2, slot, vars, ⟨_, _, h1⟩, ⟨_, _, h2⟩, ?_⟩
    intro w f ups m m1 m2 m' r n u it itf fn xs I hq hs hu hi hc ht hn hR hv hk hI
    exact each_runs hq hs hu hi hc ht hn hR hv hk hI

/-! ## Arrays -/

/-- Closing captured variables does not touch the heap. -/
theorem closeCode_heap {w : World} {f : Frame} {ups : Option (List Nat)} (vars : List ScopeVar) (h1 : f.stop ≤ maxStack)
    (h2 : ∀ v ∈ vars, f.cell v.slot < f.stop) {m m' : VM} (h : Runs w f ups (closeCode vars) m (.done .normal) m') :
    m'.heap = m.heap := by
  induction vars generalizing m m' with
  | nil => rw [(runs_nop.1 h).2]
  | cons v vs ih =>
    rw [closeCode, runs_seq] at h
    rcases h with ⟨-, hne⟩ | ⟨m1, ha, hb⟩
    · exact absurd rfl hne
    · have e := ih (fun v hv => h2 v (List.mem_cons_of_mem _ hv)) ha
      by_cases hc : v.isCaptured = true
      · rw [if_pos hc] at hb
        have hv := h2 v (List.mem_cons_self ..)
        have e1 : closeUpvalue f (UInt8.ofNat v.slot).toNat m1 =
            closeCell (f.cell v.slot) (m1.mem (f.cell v.slot)) (m1.setAt (f.cell v.slot) .null) :=
          bind_eq (frameGet_in h1 hv) (bind_eq (frameSet_in h1 hv) rfl)
        have e2 : ∃ m2, closeUpvalue f (UInt8.ofNat v.slot).toNat m1 = (.ok (), m2) ∧ m2.heap = m1.heap := by
          rw [e1]
          unfold closeCell
          split
          · exact ⟨_, rfl, rfl⟩
          · exact ⟨_, rfl, rfl⟩
        obtain ⟨m2, e3, e4⟩ := e2
        rw [Code.num] at hb
        obtain ⟨-, rfl⟩ := (runs_det (s := .normal) (m1 := m2) fun n =>
          bind_eq (bind_eq (x := operand _ _) rfl (bind_eq e3 rfl)) rfl).1 hb
        rw [e4, e]
      · rw [if_neg hc] at hb
        rw [(runs_nop.1 hb).2, e]

open Natives

section

variable {constant : String → Float} {lib : FloatLib} {loader : String → Except RtErr Bytecode}
  {fmod : Float → Float → Float} {checks debug : Bool}

/-- Calling the iterator of an array that is on top of the stack. -/
theorem iterator_calls {m : VM} {n a i : Nat} (ht : m.Top (.fnNative n)) (hr : m.ptr < maxStack) (hi : IterAt m.heap n a i) :
    ∃ o m1, CallsTop (Natives.world lib loader fmod checks debug) m (.object o) m1 ∧ m1.ptr = m.ptr + 1 ∧
      (∀ k, k < m.ptr → m1.mem k = m.mem k) ∧ elements m1.heap a = elements m.heap a ∧
      (∀ x, (elements m.heap a)[i]? = some x → m1.heap.ownField "value" (.object o) = some x ∧
        m1.heap.ownField "is_done" (.object o) = some (.bool false) ∧ IterAt m1.heap n a (i + 1)) ∧
      ((elements m.heap a)[i]? = none → m1.heap.ownField "is_done" (.object o) = some (.bool true)) := by
  obtain ⟨o, h', e1, e2, e3, e4⟩ := iter_next (lib := lib) (checks := checks) m.heap hi
    (nativeArgs none (m.pushed (.fnNative n)).mem m.ptr 0)
  have hcall := call_native (Natives.world lib loader fmod checks debug) 0 (m := m.pushed (.fnNative n)) (p := m.ptr)
    (argc := 0) (i := n) (receiver := none) rfl (by show m.ptr + 1 ≤ maxStack; omega)
    (show upd _ _ _ _ = _ from upd_same ..) e1
  refine ⟨o, _, ⟨_, _, ht, hcall, ?_⟩, rfl, ?_, e2 a (Ne.symm hi.2.2.1), e3, fun hx => (e4 hx).1⟩
  · exact ⟨Nat.succ_pos _, hr, upd_same ..⟩
  · intro k hk
    show upd (memClear (upd _ _ _) _ _) _ _ k = _
    rw [upd_other (by omega)]
    unfold memClear
    rw [if_neg (by omega), upd_other (by omega)]

/-- A body `B` that leaves one value, never says `continue`, and leaves the array `a` and its iterator `n` on the
stack alone.  `J` is what holds of the machine when the body starts, and `C` ends a round. -/
structure KeepsArray (w : World) (B C : VM → Res → VM → Prop) (j n a : Nat) (J : VM → Prop) : Prop where
  run : ∀ {m m' i}, J m → m.Top (.fnNative n) → IterAt m.heap n a i → B m (.done .normal) m' →
    m'.ptr = m.ptr + 1 ∧ m'.mem (m.ptr - 1) = .fnNative n ∧ elements m'.heap a = elements m.heap a ∧ IterAt m'.heap n a i
  cont : ∀ {m m'}, J m → m.Top (.fnNative n) → ¬ B m (.done .cont) m'
  next : ∀ {m m1 m2 m3 i v x}, J m → m.Top (.fnNative n) → IterAt m.heap n a i → B m (.done .normal) m1 →
    C m1.drop (.done .normal) m2 → CallsTop w m2 v m3 → J (m3.take j x)

/-- Such a body keeps the iterator. -/
theorem array_keepsIter {f : Frame} {ups : Option (List Nat)} {c : Code} {vars : List ScopeVar} {slot n a : Nat}
    {J : VM → Prop} (hstop : f.stop ≤ maxStack) (hcell : f.cell slot < f.stop) (hv : ∀ v ∈ vars, f.cell v.slot < f.stop)
    (hk : KeepsArray (Natives.world lib loader fmod checks debug) (Runs (Natives.world lib loader fmod checks debug) f ups c)
      (Runs (Natives.world lib loader fmod checks debug) f ups (closeCode vars)) (f.cell slot) n a J) :
    KeepsIter (Natives.world lib loader fmod checks debug) (Runs (Natives.world lib loader fmod checks debug) f ups c)
      (Runs (Natives.world lib loader fmod checks debug) f ups (closeCode vars)) (f.cell slot)
      (fun xs m => ∃ i, m.Top (.fnNative n) ∧ IterAt m.heap n a i ∧ (elements m.heap a).drop i = xs ∧ f.stop < m.ptr ∧
        m.ptr + 1 < maxStack ∧
        ∀ v m1 x, CallsTop (Natives.world lib loader fmod checks debug) m v m1 → J (m1.take (f.cell slot) x)) := by
  have facts : ∀ {m m1 : VM} {v x : Value} {xs : List Value} {i : Nat}, m.Top (.fnNative n) → IterAt m.heap n a i →
      (elements m.heap a).drop i = x :: xs → f.stop < m.ptr → m.ptr + 1 < maxStack →
      CallsTop (Natives.world lib loader fmod checks debug) m v m1 →
      m1.ptr = m.ptr + 1 ∧ (m1.take (f.cell slot) x).Top (.fnNative n) ∧
        elements m1.heap a = elements m.heap a ∧ IterAt m1.heap n a (i + 1) := by
    intro m m1 v x xs i ht hi hd hs hr hn
    obtain ⟨o, m1', e1, e2, e3, e4, e5, -⟩ := iterator_calls (lib := lib) (loader := loader) (fmod := fmod)
      (checks := checks) (debug := debug) ht (by omega) hi
    obtain ⟨rfl, rfl⟩ := hn.det e1
    have hx : (elements m.heap a)[i]? = some x := by
      have := List.getElem?_drop (xs := elements m.heap a) (i := i) (j := 0)
      rw [hd] at this
      exact this.symm
    refine ⟨e2, ⟨?_, ?_, ?_⟩, e4, (e5 x hx).2.2⟩
    · show 0 < m1.ptr - 1
      omega
    · show m1.ptr - 1 ≤ maxStack
      omega
    · show memClear (upd (upd m1.mem _ _) _ _) (m1.ptr - 1) _ (m1.ptr - 1 - 1) = _
      unfold memClear
      rw [if_neg (by omega), upd_other (by omega), upd_other (by omega), e3 _ (by omega), e2,
        show m.ptr + 1 - 1 - 1 = m.ptr - 1 by omega]
      exact ht.top
  constructor
  · rintro m ⟨i, ht, hi, hd, hs, hr, -⟩
    obtain ⟨o, m1, e1, e2, -, -, -, e3⟩ := iterator_calls (lib := lib) (loader := loader) (fmod := fmod)
      (checks := checks) (debug := debug) ht (by omega) hi
    refine ⟨_, _, e1, e2, .field (e3 ?_)⟩
    rw [List.getElem?_eq_none]
    exact List.drop_eq_nil_iff.mp hd
  · rintro x xs m ⟨i, ht, hi, hd, hs, hr, -⟩
    obtain ⟨o, m1, e1, e2, -, -, e3, -⟩ := iterator_calls (lib := lib) (loader := loader) (fmod := fmod)
      (checks := checks) (debug := debug) ht (by omega) hi
    have hx : (elements m.heap a)[i]? = some x := by
      have := List.getElem?_drop (xs := elements m.heap a) (i := i) (j := 0)
      rw [hd] at this
      exact this.symm
    obtain ⟨f1, f2, -⟩ := e3 x hx
    exact ⟨_, _, e1, e2, .field f2, .field f1⟩
  · rintro x xs m v m1 m2 ⟨i, ht, hi, hd, hs, hr, hJ⟩ hn hb
    obtain ⟨e1, e2, -, e3⟩ := facts ht hi hd hs hr hn
    have := (hk.run (hJ v m1 x hn) e2 e3 hb).1
    rw [this]
    show m1.ptr - 1 + 1 = _
    omega
  · rintro x xs m v m1 m2 ⟨i, ht, hi, hd, hs, hr, hJ⟩ hn
    exact hk.cont (hJ v m1 x hn) (facts ht hi hd hs hr hn).2.1
  · rintro x xs m v m1 m2 m3 ⟨i, ht, hi, hd, hs, hr, hJ⟩ hn hb hc
    obtain ⟨e1, e2, e3, e4⟩ := facts ht hi hd hs hr hn
    obtain ⟨g1, g2, g3, g4⟩ := hk.run (hJ v m1 x hn) e2 e4 hb
    obtain ⟨m3', c1, c2, c3⟩ := closeCode_runs (w := Natives.world lib loader fmod checks debug) (ups := ups) vars hstop hv m2.drop
    obtain ⟨-, rfl⟩ := (c1 _ _).1 hc
    have ch := closeCode_heap vars hstop hv hc
    have hp2 : m2.ptr = m.ptr + 1 := by
      rw [g1]
      show m1.ptr - 1 + 1 = _
      omega
    have hp3 : m3.ptr = m.ptr := by
      rw [c2]
      show m2.ptr - 1 = _
      omega
    refine ⟨i + 1, ⟨by omega, by omega, ?_⟩, ?_, ?_, by omega, by omega, fun v' m' x' hn' =>
      hk.next (hJ v m1 x hn) e2 e4 hb hc hn'⟩
    · rw [hp3, c3 _ (by omega)]
      show upd m2.mem _ _ _ = _
      rw [upd_other (by omega)]
      have : (m1.take (f.cell slot) x).ptr - 1 = m.ptr - 1 := by
        show m1.ptr - 1 - 1 = _
        omega
      rw [this] at g2
      exact g2
    · rw [ch]; exact g4
    · rw [ch]
      show (elements m2.heap a).drop (i + 1) = xs
      rw [g3]
      show (elements m1.heap a).drop (i + 1) = xs
      rw [e3, ← List.drop_drop, hd]
      rfl

/-- **C64.**  A loop over an array.  Once the source is computed, the body is run for each of the elements, in order,
with the loop variable set to each of them, until all were visited or the body leaves the loop.  `s` is the machine
when the rounds begin: the iterator `n` has replaced the array on top of the stack.

Assumed: the class `Array` still has its method `iter` and the array no field of that name; the body leaves one value
and leaves the array, its iterator and the stack alone (`KeepsArray`); the frame is large enough and there is room on
the stack. -/
theorem array_loop_visits_partial {g g' : Env} {x : String} {source body : Expr} {c : Code}
    (h : Gen g (.expr (.forLoop x source body)) c g')
    (hns : ∀ a b, source ≠ .binary .rangeInclusive a b ∧ source ≠ .binary .rangeExclusive a b) :
    ∃ cs cb slot vars, (∃ g1 g2, Gen g1 (.expr source) cs g2) ∧ (∃ g1 g2, Gen g1 (.expr body) cb g2) ∧
      ∀ {w : World} {f : Frame} {ups : Option (List Nat)} {m m1 : VM} {a : Nat}, w = Natives.world lib loader fmod checks debug →
        Runs w f ups cs m (.done .normal) m1 → m1.Top (.array a) → a < m1.heap.arrays.length →
        (m1.heap.asObject (.array a)).bind (·.cls) = none → m1.heap.ownField "iter" (.array a) = none →
        m1.heap.method 2 "iter" = (Natives.machine constant).heap.method 2 "iter" →
        RoomAt f slot m1 → (∀ v ∈ vars, f.cell v.slot < f.stop) →
        ∃ n s, s.ptr = m1.ptr ∧ s.Top (.fnNative n) ∧ (∀ k, k + 1 < m1.ptr → s.mem k = m1.mem k) ∧ IterAt s.heap n a 0 ∧
          (∀ b, b < m1.heap.arrays.length → elements s.heap b = elements m1.heap b) ∧
          ∀ {J : VM → Prop} {r : Res} {m' : VM}, r.Quiet →
            KeepsArray w (Runs w f ups cb) (Runs w f ups (closeCode vars)) (f.cell slot) n a J →
            (∀ v m2 x, CallsTop w s v m2 → J (m2.take (f.cell slot) x)) →
            (Runs w f ups c m r m' ↔
              DropsIter (EachSpec w (CallsTop w) (Runs w f ups cb) (Runs w f ups (closeCode vars)) (f.cell slot)
                (elements m1.heap a) s) r m') := by
  obtain ⟨cs, cb, slot, vars, hs, hb, key⟩ := iterator_loop_visits_partial h hns
  refine ⟨cs, cb, slot, vars, hs, hb, ?_⟩
  intro w f ups m m1 a hw hr ht ha hcls hown hm hR hv
  subst hw
  obtain ⟨o, n, h', e1, e2, e3, e4⟩ := array_iter (constant := constant) (lib := lib) (checks := checks) m1.heap ha
  have e5 : some (native lib checks 11 [.array a] m1.heap) = some (.ok (.object o), h') := e1 ▸ (by kernel_rfl)
  have e5 : native lib checks 11 [.array a] m1.heap = (.ok (.object o), h') := Option.some.inj e5
  have hmem : Member (Natives.world lib loader fmod checks debug) m1.heap (.array a) "iter"
      (.fnBound (.array a) (.fnNative 11)) := by
    refine .method hown (by decide) (c := 2) ?_ ?_
    · unfold Heap.classOf
      rw [hcls]
      rfl
    · rw [hm]
      kernel_rfl
  have h1 := ht.pos
  have h2 := ht.max
  have hcall := call_native (Natives.world lib loader fmod checks debug) 0
    (m := m1.retop (.fnBound (.array a) (.fnNative 11))) (p := m1.ptr - 1) (argc := 0) (i := 11)
    (receiver := some (.array a)) (show m1.ptr = _ by omega) (show m1.ptr ≤ maxStack from h2)
    (show upd _ _ _ _ = _ from upd_same ..) e5
  obtain ⟨s, es, hcall⟩ : ∃ s, _ = s ∧ callFn (Natives.world lib loader fmod checks debug) 1 0
    (m1.retop (.fnBound (.array a) (.fnNative 11))) = (.ok (), s) := ⟨_, rfl, hcall⟩
  have hp : s.ptr = m1.ptr := by
    rw [← es]
    show m1.ptr - 1 + 1 = _
    omega
  have hh : s.heap = h' := by
    rw [← es]
  have ht2 : s.Top (.object o) := by
    rw [← es]
    exact ⟨Nat.succ_pos _, (by show m1.ptr - 1 + 1 ≤ maxStack; omega), upd_same ..⟩
  have ht3 : (s.retop (.fnNative n)).Top (.fnNative n) := ⟨ht2.pos, ht2.max, upd_same ..⟩
  have hk : ∀ k, k + 1 < m1.ptr → (s.retop (.fnNative n)).mem k = m1.mem k := by
    intro k hk
    show upd s.mem (s.ptr - 1) _ k = _
    rw [upd_other (by omega), ← es]
    show upd (memClear (upd m1.mem _ _) _ _) _ _ k = _
    rw [upd_other (by omega)]
    unfold memClear
    rw [if_neg (by omega), upd_other (by omega)]
  have h3 := hR.above
  have h4 := hR.room
  refine ⟨n, s.retop (.fnNative n), hp, ht3, hk, (by rw [← hh] at e3; exact e3), (by rw [← hh] at e4; exact e4), ?_⟩
  intro J r m' hq hkeep hJ
  have hR' : RoomAt f slot (s.retop (.fnNative n)) :=
    ⟨hR.stop, hR.cell, (by show f.stop < s.ptr; omega), (by show s.ptr + 1 < maxStack; omega)⟩
  exact key hq hr ht hmem hcall ht2 (.field (by rw [← hh] at e2; exact e2)) hR' hv
    (array_keepsIter hR.stop hR.cell hv hkeep)
    ⟨0, ht3, (by rw [← hh] at e3; exact e3), (by
      show (elements s.heap a).drop 0 = _
      rw [hh, e4 a ha]
      rfl), hR'.above, hR'.room, hJ⟩

/-- A body that gives `()` and does nothing else meets the assumption on bodies. -/
theorem unit_keepsArray {f : Frame} {ups : Option (List Nat)} {vars : List ScopeVar} {slot n a : Nat}
    (hstop : f.stop ≤ maxStack) (hv : ∀ v ∈ vars, f.cell v.slot < f.stop) :
    KeepsArray (Natives.world lib loader fmod checks debug)
      (Runs (Natives.world lib loader fmod checks debug) f ups (.op .pushUnit))
      (Runs (Natives.world lib loader fmod checks debug) f ups (closeCode vars)) (f.cell slot) n a
      fun m => f.stop < m.ptr ∧ m.ptr < maxStack where
  run {m m' i} hJ ht hi h := by
    obtain ⟨-, -, rfl⟩ := (runs_pushUnit (Res.quiet_done _)).1 h
    exact ⟨rfl, (upd_other (show m.ptr - 1 ≠ m.ptr by omega)).trans ht.top, rfl, hi⟩
  cont _ _ h := by cases ((runs_pushUnit (Res.quiet_done _)).1 h).2.1
  next {m m1 m2 m3 i v x} hJ ht hi h hc hn := by
    obtain ⟨-, -, rfl⟩ := (runs_pushUnit (Res.quiet_done _)).1 h
    obtain ⟨m2', c1, c2, c3⟩ := closeCode_runs (w := Natives.world lib loader fmod checks debug) (ups := ups) vars hstop hv
      (m.pushed .unit).drop
    obtain ⟨-, rfl⟩ := (c1 _ _).1 hc
    have ch := closeCode_heap vars hstop hv hc
    have hp : m2.ptr = m.ptr := c2
    have ht2 : m2.Top (.fnNative n) := by
      refine ⟨by omega, by omega, ?_⟩
      rw [hp, c3 _ (by omega)]
      show upd (upd m.mem m.ptr _) _ _ _ = _
      rw [upd_other (by show m.ptr - 1 ≠ m.ptr + 1 - 1; omega), upd_other (by omega)]
      exact ht.top
    obtain ⟨o, m3', e1, e2, -⟩ := iterator_calls (lib := lib) (loader := loader) (fmod := fmod)
      (checks := checks) (debug := debug) ht2 (by omega) (ch ▸ hi)
    obtain ⟨rfl, rfl⟩ := hn.det e1
    show f.stop < m3.ptr - 1 ∧ m3.ptr - 1 < maxStack
    omega

/-- `for x in [4, 5] {}` when its source is computed: the hypotheses on the machine can be met. -/
example (constant : String → Float) : ∃ m1 : VM, m1.Top (.array 0) ∧ 0 < m1.heap.arrays.length ∧
    (m1.heap.asObject (.array 0)).bind (·.cls) = none ∧ m1.heap.ownField "iter" (.array 0) = none ∧
    m1.heap.method 2 "iter" = (Natives.machine constant).heap.method 2 "iter" ∧
    elements m1.heap 0 = [.int 4, .int 5] :=
  ⟨({Natives.machine constant with heap := ((Natives.machine constant).heap.newArray [.int 4, .int 5]).2}).pushed
    (.array 0), ⟨Nat.succ_pos _, Nat.le_of_ble_eq_true (by kernel_rfl), by kernel_rfl⟩, Nat.le_of_ble_eq_true (by kernel_rfl),
    by kernel_rfl, by kernel_rfl, by kernel_rfl, by kernel_rfl⟩

end

end Dice
