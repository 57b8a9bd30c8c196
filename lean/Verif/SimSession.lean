import Verif.SimNative

/-!
# Programs with modules, and programs one after the other

C18 for programs that import modules, and for the sessions of the interactive tool, which runs one script after the
other on the same machine.
-/

namespace Dice.Sim

open Src (SEnv State Out S Jump)

/-! ## A program that imports a module -/

/-- A loader that knows one module. -/
def oneModule (name : String) (root : Expr) (path : String) : Except RtErr Bytecode :=
  if path = name then
    match compile .module root with
    | .ok bc => .ok bc
    | .error _ => .error (.load path)
  else .error (.load path)

def oneSource (name : String) (root : Expr) : Src.Sources := fun path => if path = name then some root else none

/-- The module compiles, within the limits of the encoding, and leaves the variable of the exports alone. -/
def moduleOk (root : Expr) : Bool :=
  (match root with
    | .block _ _ => true
    | _ => false) &&
  (match compile .module root with
    | .ok bc => fitsUpTo 9 bc
    | .error _ => false) && avoids nameExport false root

theorem oneSource_rel {w : World} {name : String} {root : Expr} (h : moduleOk root = true) :
    SourceRel { w with loader := oneModule name root } (oneSource name root) := by
  intro path root' hp
  unfold oneSource at hp
  split at hp
  · next hn =>
    cases hp
    unfold moduleOk at h
    simp only [Bool.and_eq_true] at h
    obtain ⟨⟨h1, h2⟩, h3⟩ := h
    cases hc : compile .module root with
    | error e => rw [hc] at h2; cases h2
    | ok bc =>
      rw [hc] at h2
      cases root with
      | block es t =>
        have hl : oneModule name (.block es t) path = .ok bc := by
          unfold oneModule
          rw [if_pos hn, hc]
        exact ⟨es, t, bc, rfl, hl, rfl, fitsUpTo_sound h2, h3⟩
      | _ => cases h1
  · cases hp

/-- A module with a counter, its function and a constant. -/
def counterModule : Expr :=
  .block [.varDecl (.singular "n") true (.int 0) none,
    .exportDecl (.fnDecl "next" [] none (.block [.assign .add (.ident "n") (.int 1)] (some (.ident "n"))))]
    (some (.exportDecl (.varDecl (.singular "step") false (.int 5) none)))

example : Parser.parseSource "let mut n = 0 export fn next() { n += 1 n } export let step = 5" = .ok counterModule := by kernel_rfl

/-- The module is loaded once: both imports have the same counter, so `next` counts to three; then `step` adds five. -/
def importer : Expr :=
  .block [.importDecl none ["next"] "m", .importDecl (some "c") ["step"] "m", .call (.ident "next") [],
    .call (.field (.ident "c") "next") []] (some (.binary .add (.call (.ident "next") []) (.ident "step")))

example : Parser.parseSource "import { next } from \"m\" import * as c, { step } from \"m\" next() c.next() next() + step" = .ok importer := by
  kernel_rfl

/-- Such a program meets the hypotheses of the theorems. -/
example : SourceRel { Findings.world true with loader := oneModule "m" counterModule } (oneSource "m" counterModule) :=
  oneSource_rel (by decide +kernel)

example : ((match compile .script importer with
    | .ok bc => fitsUpTo 9 bc
    | .error _ => false) &&
  (match (Src.program { Findings.world true with loader := oneModule "m" counterModule } (fun _ _ => false) (oneSource "m" counterModule)
      60 importer (stateOf Findings.machine)).1 with
    | .ok v => Findings.same v (.int 8)
    | _ => false)) = true := by decide +kernel

/-! ## Sessions -/

section
variable {w : World} {known : Src.Known} {src : Src.Sources} {n : Nat} {m : VM} {μ : Nat → Option Nat} {κ : List Value} {σ : State}

/-- Scripts run one after the other on the same machine, each to its end. -/
inductive Session (w : World) : VM → List Bytecode → List Value → VM → Prop where
  | nil (m : VM) : Session w m [] [] m
  | cons {m m1 m2 : VM} {bc : Bytecode} {bcs : List Bytecode} {u : Value} {us : List Value} (k : Nat)
    (h : run w k bc m = (.ok u, m1)) (hs : Session w m1 bcs us m2) : Session w m (bc :: bcs) (u :: us) m2

/-- Scripts evaluated one after the other. -/
def Src.session (w : World) (known : Src.Known) (src : Src.Sources) (n : Nat) : List Expr → S (List Value)
  | [] => pure []
  | e :: es => do
    let v ← Src.program w known src n e
    let vs ← Src.session w known src n es
    pure (v :: vs)

/-- The bytecode of a script, within the limits of the encoding. -/
def Compiled (e : Expr) (bc : Bytecode) : Prop := (∃ es t, e = .block es t) ∧ compile .script e = .ok bc ∧ Fits bc

/-- **C18.**  The scripts of a session that the evaluator covers give, run one after the other on the same machine, the
values that evaluating them one after the other gives, with the same objects, globals, modules and functions at the end,
unless the stack overflows in one of them. -/
theorem session_agrees_partial (hn : NativeRel w known) (hs : SourceRel w src) {roots : List Expr} {bcs : List Bytecode}
    (hc : All₂ Compiled roots bcs) (hm : Ready μ κ σ m) {vs : List Value} {σ' : State}
    (he : Src.session w known src n roots σ = (.ok vs, σ')) :
    (∃ pre bc post us m1, bcs = pre ++ bc :: post ∧ Session w m pre us m1 ∧ Overflows (fun k => run w k bc) m1) ∨
      ∃ us m' μ' κ', Session w m bcs us m' ∧ κ <+: κ' ∧ All₂ (VRel κ') vs us ∧ Ready μ' κ' σ' m' ∧ m'.ptr = m.ptr := by
  induction hc generalizing σ m μ κ vs with
  | nil =>
    cases he
    exact .inr ⟨[], m, μ, κ, .nil m, List.prefix_refl _, .nil, hm, rfl⟩
  | @cons root bc roots bcs hr _ ih =>
    obtain ⟨⟨es, t, rfl⟩, h1, h2⟩ := hr
    unfold Src.session at he
    have ha := compiled_program_agrees_partial (n := n) hn hs h1 h2 hm
    cases hp : Src.program w known src n (.block es t) σ with
    | mk o σ1 =>
      cases o with
      | ok v =>
        rw [S.bind_ok_eq hp] at he
        cases hq : Src.session w known src n roots σ1 with
        | mk o2 σ2 =>
          cases o2 with
          | ok vs' =>
            rw [S.bind_ok_eq hq] at he
            cases he
            rw [hp] at ha
            rcases ha with ho | ⟨k, u, m1, k1, k2, -, μ1, κ1, k3, k4, -, -, -, k5⟩
            · exact .inl ⟨[], bc, bcs, [], m, rfl, .nil m, ho⟩
            · rcases ih k5 hq with ⟨pre, bc', post, us, m2, e1, e2, e3⟩ | ⟨us, m2, μ2, κ2, e1, e2, e3, e4, e5⟩
              · exact .inl ⟨bc :: pre, bc', post, u :: us, m2, by rw [e1]; rfl, .cons k k1 e2, e3⟩
              · exact .inr ⟨u :: us, m2, μ2, κ2, .cons k k1 e1, k3.trans e2, .cons (k4.mono e2) e3, e4, e5.trans k2⟩
          | _ =>
            have : ((Src.session w known src n roots >>= fun vs => pure (v :: vs)) σ1).1 = .ok vs := by rw [he]
            rw [show (Src.session w known src n roots >>= fun vs => pure (v :: vs)) σ1 = S.bind (Src.session w known src n roots) (fun vs => pure (v :: vs)) σ1 from rfl] at this
            unfold S.bind at this
            rw [hq] at this
            cases this
      | _ =>
        rw [show (Src.program w known src n (.block es t) >>= fun v => Src.session w known src n roots >>= fun vs => pure (v :: vs)) σ =
          S.bind (Src.program w known src n (.block es t)) (fun v => Src.session w known src n roots >>= fun vs => pure (v :: vs)) σ from rfl] at he
        unfold S.bind at he
        rw [hp] at he
        cases he

/-- Bytecodes of scripts, when they compile within the limits of the encoding. -/
def compileAll : List Expr → Option (List Bytecode)
  | [] => some []
  | root :: roots =>
    match root, compile .script root, compileAll roots with
    | .block _ _, .ok bc, some bcs => if fitsUpTo 9 bc then some (bc :: bcs) else none
    | _, _, _ => none

theorem compileAll_sound : ∀ (roots : List Expr) {bcs : List Bytecode}, compileAll roots = some bcs → All₂ Compiled roots bcs
  | [], _, h => by cases h; exact .nil
  | root :: roots, bcs, h => by
    unfold compileAll at h
    split at h
    · next es t bc bcs' h2 h1 =>
      split at h
      · next hf =>
        cases h
        exact .cons ⟨⟨es, t, rfl⟩, h1, fitsUpTo_sound hf⟩ (compileAll_sound roots h2)
      · cases h
    · cases h

/-- Two scripts; the module of the first is still loaded for the second, which counts on. -/
def counting : Expr := .block [.importDecl none ["next"] "m"] (some (.call (.ident "next") []))

example : Parser.parseSource "import { next } from \"m\" next()" = .ok counting := by kernel_rfl

example : ((compileAll [counting, counting]).isSome &&
  (match (Src.session { Findings.world true with loader := oneModule "m" counterModule } (fun _ _ => false) (oneSource "m" counterModule)
      60 [counting, counting] (stateOf Findings.machine)).1 with
    | .ok [a, b] => Findings.same a (.int 1) && Findings.same b (.int 2)
    | _ => false)) = true := by decide +kernel

end

end Dice.Sim
