import Verif.Symbol

/-!
# Symbols are equal iff their texts are equal (C43)

The history of an interner is a list of interned texts.  Whatever was interned, the `i`-th and `j`-th
symbols handed out are equal iff the `i`-th and `j`-th texts are, and every symbol still resolves to its
text at the end of the history.
-/

namespace Dice

namespace Interner

theorem getOrIntern_spec {t t' : Interner} {x : String} {s : Symbol} (hn : t.texts.Nodup)
    (h : t.getOrIntern x = some (s, t')) :
    t'.texts.Nodup ∧ t'.resolve s = some x ∧ ∃ more, t'.texts = t.texts ++ more := by
  unfold getOrIntern at h
  split at h
  · rename_i i hi
    rw [List.findIdx?_eq_some_iff_getElem] at hi
    obtain ⟨hl, hx, _⟩ := hi
    cases h
    refine ⟨hn, ?_, [], by simp⟩
    simp only [resolve]
    rw [List.getElem?_eq_getElem hl]
    simpa using hx
  · rename_i hi
    rw [List.findIdx?_eq_none_iff] at hi
    split at h
    · cases h
      refine ⟨?_, by simp [resolve], [x], rfl⟩
      rw [List.nodup_append]
      refine ⟨hn, by simp, ?_⟩
      intro a ha b hb
      simp only [List.mem_singleton] at hb
      subst hb
      have := hi a ha
      simpa using this
    · cases h

theorem resolve_stable {t t' : Interner} {s : Symbol} {x : String} (h : t.resolve s = some x)
    (hm : ∃ more, t'.texts = t.texts ++ more) : t'.resolve s = some x := by
  obtain ⟨more, hm⟩ := hm
  simp only [resolve] at h ⊢
  rw [hm]
  exact List.getElem?_append_left (List.getElem?_eq_some_iff.mp h).1 ▸ h

theorem resolve_inj {t : Interner} (hn : t.texts.Nodup) {s s' : Symbol} {x : String}
    (h : t.resolve s = some x) (h' : t.resolve s' = some x) : s = s' := by
  cases s; cases s'
  simp only [resolve] at h h'
  have h1 := List.getElem?_eq_some_iff.mp h
  have h2 := List.getElem?_eq_some_iff.mp h'
  congr 1
  exact (List.getElem_inj (h₀ := h1.1) (h₁ := h2.1) hn).mp (h1.2.trans h2.2.symm)

theorem internAll_spec {t t' : Interner} {xs : List String} {ss : List Symbol} (hn : t.texts.Nodup)
    (h : t.internAll xs = some (ss, t')) :
    t'.texts.Nodup ∧ (∃ more, t'.texts = t.texts ++ more) ∧ ss.length = xs.length
      ∧ ∀ (i : Nat) (s : Symbol), ss[i]? = some s → ∃ x, xs[i]? = some x ∧ t'.resolve s = some x := by
  induction xs generalizing t ss with
  | nil =>
    simp only [internAll] at h
    cases h
    exact ⟨hn, ⟨[], by simp⟩, rfl, by simp⟩
  | cons x xs ih =>
    simp only [internAll] at h
    split at h
    · cases h
    · rename_i s1 t1 h1
      split at h
      · cases h
      · rename_i ss1 t2 h2
        cases h
        obtain ⟨hn1, hr1, m1, hm1⟩ := getOrIntern_spec hn h1
        obtain ⟨hn2, ⟨m2, hm2⟩, hl, hs⟩ := ih hn1 h2
        refine ⟨hn2, ⟨m1 ++ m2, by rw [hm2, hm1, List.append_assoc]⟩, by simp [hl], ?_⟩
        intro i s hi
        cases i with
        | zero =>
          simp only [List.getElem?_cons_zero, Option.some.injEq] at hi
          subst hi
          exact ⟨x, rfl, resolve_stable hr1 ⟨m2, hm2⟩⟩
        | succ i => exact hs i s (by simpa using hi)

end Interner

/-- C43.  Starting from the empty interner, after any history of internings: two symbols handed out are
equal iff the texts are, and each resolves to its text at the end. -/
theorem symbols_equal_iff_texts_equal {texts : List String} {syms : List Symbol} {t : Interner}
    (h : Interner.internAll {} texts = some (syms, t)) {i j : Nat} {a b : Symbol}
    (hi : syms[i]? = some a) (hj : syms[j]? = some b) :
    (a = b ↔ texts[i]? = texts[j]?) ∧ t.resolve a = texts[i]? := by
  obtain ⟨hn, _, _, hs⟩ := Interner.internAll_spec (t := {}) (by simp) h
  obtain ⟨x, hx, hrx⟩ := hs i a hi
  obtain ⟨y, hy, hry⟩ := hs j b hj
  refine ⟨⟨?_, ?_⟩, by rw [hrx, hx]⟩
  · intro hab
    subst hab
    rw [hx, hy]
    rw [hrx] at hry
    exact hry
  · intro hab
    rw [hx, hy] at hab
    cases hab
    exact Interner.resolve_inj hn hrx hry

/-- C43, progress: interning only fails when the table already holds 2^32 - 1 different texts, and then
only for a text that is not in it. -/
theorem intern_fails_iff (t : Interner) (x : String) :
    t.getOrIntern x = none ↔ x ∉ t.texts ∧ Interner.capacity ≤ t.texts.length := by
  unfold Interner.getOrIntern
  split
  · rename_i i hi
    rw [List.findIdx?_eq_some_iff_getElem] at hi
    obtain ⟨hl, hx, _⟩ := hi
    have : t.texts[i] = x := by simpa using hx
    simp only [reduceCtorEq, false_iff, not_and]
    intro hn
    exact absurd (this ▸ List.getElem_mem hl) hn
  · rename_i hi
    rw [List.findIdx?_eq_none_iff] at hi
    have hx : x ∉ t.texts := fun hm => by simpa using hi x hm
    by_cases hc : t.texts.length < Interner.capacity
    · simp [hc, hx]
    · simp only [hc, if_false, true_iff]
      exact ⟨hx, by omega⟩

/-- A history with a repeated text. -/
example : ∃ t, Interner.internAll {} ["new", "iter", "new"] = some ([⟨0⟩, ⟨1⟩, ⟨0⟩], t)
    ∧ t.resolve ⟨1⟩ = some "iter" := ⟨⟨["new", "iter"]⟩, by decide +kernel⟩

end Dice
