import Verif.Pinned
import Verif.Findings

/-!
# Variables keep their values

The consequences of `Pinned` for declared variables, and a program whose immutable variable changes.
-/

namespace Dice

namespace Src

/-- A state in which no function sets `x`, and an environment of locations in use. -/
structure Quiet (x : String) (σ : State) (ρ : SEnv) : Prop where
  fns : ∀ cl ∈ σ.fns, unset x cl.body = true ∧ ∀ p ∈ cl.env, p.2 < σ.store.length
  env : ∀ p ∈ ρ, p.2 < σ.store.length

theorem Quiet.pinned {x : String} {σ : State} {ρ : SEnv} (h : Quiet x σ ρ) :
    Pinned x (fun _ => none) σ ∧ Good x (fun _ => none) σ.store.length ρ :=
  ⟨⟨nofun, fun cl hc => ⟨(h.fns cl hc).1, (h.fns cl hc).2, fun _ _ h => nomatch h⟩⟩, ⟨h.env, fun _ _ h => nomatch h⟩⟩

theorem Quiet.start (x : String) (σ : State) (h : σ.fns = []) : Quiet x σ [] :=
  ⟨fun cl hc => (List.not_mem_nil (h ▸ hc)).elim, fun _ hp => (List.not_mem_nil hp).elim⟩

variable {w : World} {known : Known} {src : Sources} {r : Role} {m n : Nat} {x : String}

/-- A state and environment stay so, whatever is evaluated that does not set the name. -/
theorem quiet_kept (hsrc : ∀ p root, src p = some root → unset x root = true) {σ σ' : State} {ρ ρ' : SEnv} {e : Expr}
    {inside : Bool} {v : Value} (hq : Quiet x σ ρ) (he : unset x e = true)
    (h : eval w (calls w known src m) r n inside e ρ σ = (.ok (v, ρ'), σ')) : Quiet x σ' ρ' := by
  obtain ⟨h1, h2⟩ := hq.pinned
  obtain ⟨g1, g2, g3⟩ := (safe_eval (safe_calls (w := w) (known := known) hsrc m) (r := r) (n := n) (w := w) e he inside _ ρ h2).run σ h1 (Nat.le_refl _)
  rw [h] at g1 g2 g3
  exact ⟨fun cl hc => ⟨(g1.fns cl hc).1, (g1.fns cl hc).2.below⟩, (g3 _ rfl).below⟩

theorem readVar_pinned {ρ : SEnv} {l : Nat} {σ : State} {v : Value} (h : σ.store[l]? = some (some v)) :
    readVar ((x, l) :: ρ) x σ = (.ok v, σ) := by
  have : List.lookup x ((x, l) :: ρ) = some l := by simp [List.lookup]
  unfold readVar
  rw [this]
  dsimp only [readLoc]
  rw [h]

theorem checkVar_still {t : Option TypeAnn} {l : Nat} {ρ : SEnv} {σ σ' : State} {o : Out Unit} (h : checkVar w t l ρ σ = (o, σ')) :
    σ' = σ := by
  have run : ∀ {α β : Type} (X : S α) (f : α → S β), (∀ σ, (X σ).2 = σ) → (∀ a σ, (f a σ).2 = σ) → ∀ σ, ((X >>= f) σ).2 = σ := by
    intro α β X f hX hf σ
    change (S.bind X f σ).2 = σ
    unfold S.bind
    have h1 := hX σ
    rcases hx : X σ with ⟨o, σ1⟩
    rw [hx] at h1
    dsimp only at h1
    subst h1
    cases o with
    | ok a => exact hf a σ1
    | _ => rfl
  have hl : ∀ l σ, (readLoc l σ).2 = σ := by
    intro l σ
    unfold readLoc
    split <;> rfl
  have key : ∀ σ, (checkVar w t l ρ σ).2 = σ := by
    cases t with
    | none => exact fun _ => rfl
    | some t =>
      unfold checkVar
      refine run _ _ (fun σ => ?_) fun c => run _ _ (fun σ => ?_) fun k => run _ _ (hl l) fun v σ => ?_
      · unfold readVar
        cases ρ.lookup t.name with
        | some l => exact hl l σ
        | none =>
          dsimp only [globalVar]
          split <;> rfl
      · cases c <;> rfl
      · unfold checkType
        split
        · split <;> rfl
        · split <;> rfl
  have := key σ
  rw [h] at this
  exact this

/-- **C71.**  After `let x = e0` the variable has the value of `e0`, whatever is evaluated next that does not set the name: also
when it fails, calls functions that were declared earlier, or imports modules. -/
theorem variable_kept (hsrc : ∀ p root, src p = some root → unset x root = true) {σ σ1 σ2 : State} {ρ ρ1 : SEnv} {e0 e : Expr}
    {mutable inside inside' : Bool} {t : Option TypeAnn} {v : Value} {o : Out (Value × SEnv)}
    (hq : Quiet x σ ρ) (h0 : unset x e0 = true) (he : unset x e = true)
    (hd : eval w (calls w known src m) r n inside (.varDecl (.singular x) mutable e0 t) ρ σ = (.ok (v, ρ1), σ1))
    (h : eval w (calls w known src m) r n inside' e ρ1 σ1 = (o, σ2)) :
    readVar ρ1 x σ2 = (.ok v, σ2) := by
  simp only [eval] at hd
  change S.bind _ _ σ = _ at hd
  unfold S.bind at hd
  rcases hev : eval w (calls w known src m) r n false e0 ρ σ with ⟨o1, σ'⟩
  rw [hev] at hd
  cases o1 with
  | ok p =>
    obtain ⟨v', ρ'⟩ := p
    have hq' := quiet_kept hsrc hq h0 hev
    dsimp only at hd
    change S.bind (checkVar w t σ'.store.length ((x, σ'.store.length) :: ρ')) _ { σ' with store := σ'.store ++ [some v'] } = _ at hd
    unfold S.bind at hd
    rcases hck : checkVar w t σ'.store.length ((x, σ'.store.length) :: ρ') { σ' with store := σ'.store ++ [some v'] } with ⟨o2, σ3⟩
    have hst := checkVar_still hck
    rw [hck] at hd
    cases o2 with
    | ok u =>
      dsimp only at hd
      cases hd
      subst hst
      obtain ⟨pins, hpins⟩ : ∃ pins : Nat → Option Value, pins = fun l => if l = σ'.store.length then some v else none := ⟨_, rfl⟩
      have hp : Pinned x pins { σ' with store := σ'.store ++ [some v] } := by
        constructor
        · intro l u hl
          rw [hpins] at hl
          dsimp only at hl
          split at hl
          · rename_i heq
            cases hl
            rw [heq]
            simp
          · cases hl
        · intro cl hc
          obtain ⟨g1, g2⟩ := hq'.fns cl hc
          refine ⟨g1, fun p hp => ?_, fun p hp hs => ?_⟩
          · have := g2 p hp
            simp only [List.length_append, List.length_singleton]
            omega
          · have := g2 p hp
            rw [hpins] at hs
            dsimp only at hs
            rw [if_neg (by omega)] at hs
            cases hs
      have hg : Good x pins (σ'.store ++ [some v]).length ((x, σ'.store.length) :: ρ') := by
        constructor
        · intro p hp
          simp only [List.length_append, List.length_singleton]
          rcases List.mem_cons.1 hp with rfl | hp
          · omega
          · have := hq'.env p hp
            omega
        · intro p hp hs
          rcases List.mem_cons.1 hp with rfl | hp
          · rfl
          · have := hq'.env p hp
            rw [hpins] at hs
            dsimp only at hs
            rw [if_neg (by omega)] at hs
            cases hs
      have hrun := (safe_eval (safe_calls (w := w) (known := known) hsrc m) (r := r) (n := n) (w := w) e he inside' _ _ hg).run _ hp (Nat.le_refl _)
      rw [h] at hrun
      exact readVar_pinned (hrun.1.held _ _ (by rw [hpins]; simp))
    | _ => cases hd
  | _ => cases hd

/-- Beside it: a loop, a function and an assignment to another variable leave `x` as it was declared. -/
example (hsrc : ∀ p root, src p = some root → unset "x" root = true) {o : Out (Value × SEnv)} {σ2 : State}
    (h : eval w (calls w known src m) r n false
      (.block [.varDecl (.singular "y") true (.ident "x") none,
        .whileLoop (.binary .lessThan (.ident "y") (.int 3)) (.assign .assign (.ident "y") (.binary .add (.ident "y") (.ident "x"))),
        .anonFn [] none (.ident "x")] (some (.call (.ident "y") []))) [("x", 0)]
      { store := [some (.int 1)] } = (o, σ2)) :
    readVar [("x", 0)] "x" σ2 = (.ok (.int 1), σ2) :=
  variable_kept (σ := {}) (ρ := []) (e0 := .int 1) (mutable := false) (inside := false) (t := none) hsrc
    (Quiet.start _ _ rfl) rfl (by decide) (by rfl) h

end Src

open Findings in
/-- **C71, refuted.**  A class declaration in the same block changes an immutable variable of its name
(dice-compiler/src/visitor/decl_class.rs:50-78 looks the name up, and does not ask what it is). -/
theorem class_overwrites_variable : Gives true "let x = 1 class x { } x is Int" (.bool false) 0 :=
  gives (e := .block [let_ "x" (.int 1), .classDecl "x" none []] (some (.is (var "x") ⟨"Int", false⟩)))
    (by kernel_rfl) (by decide +kernel)

end Dice
