import Verif.Model.Text
/-!
# Instrumented programs

A small imperative language with just the features that matter for the guards the backends insert:
`if <environment variable> != "<id>" { … }` (backends/src/rust/mod.rs:639-647, backends/src/go/mod.rs:484-499,
backends/src/ts/inner/mod.rs:119-127, backends/src/php/mod.rs:560-565, backends/src/foundry/mod.rs:417-425).
Braces are explicit in the syntax because an `else` attaches to the nearest open `if`, and because declarations
are local to a block.

What a primitive does is an arbitrary function of the state. Nondeterminism and I/O are in the state (an oracle and
a trace). Assumption: nothing in the program but the guards looks at the environment variable.
-/
namespace Necessist.Guard

/-- Program state: anything, plus the local variables in scope (innermost first). -/
structure St (σ V : Type) where
  store : σ
  locals : List V

/-- How a statement finishes: normally, by a jump (0 = break, 1 = continue, 2 = return, others = exceptions), or
not at all within the given number of loop iterations and calls. -/
inductive Out (σ V : Type) where
  | normal (s : St σ V)
  | jump (label : Nat) (s : St σ V)
  | outOfFuel (s : St σ V)

/-- The state at the end. -/
def Out.st {σ V} : Out σ V → St σ V
  | .normal s | .jump _ s | .outOfFuel s => s

/-- Change the final state. -/
def Out.mapSt {σ V} (f : St σ V → St σ V) : Out σ V → Out σ V
  | .normal s => .normal (f s)
  | .jump l s => .jump l (f s)
  | .outOfFuel s => .outOfFuel (f s)

/-- A primitive statement: anything that declares no variable. -/
structure Prim (σ V : Type) where
  run : St σ V → Out σ V
  keeps : ∀ s, (run s).st.locals.length = s.locals.length

/-- Statements. `els` is `skip` when `hasElse` is false. -/
inductive Stmt (σ V : Type) where
  | skip
  | prim (p : Prim σ V)
  | decl (f : St σ V → V)
  | seq (a b : Stmt σ V)
  | block (s : Stmt σ V)
  | ite (c : St σ V → σ × Bool) (thn els : Stmt σ V) (hasElse : Bool)
  | loop (c : St σ V → σ × Bool) (body : Stmt σ V)
  | call (f : Nat)
  /-- a statement that is a removal candidate, with its location -/
  | cand (k : Nat) (s : Stmt σ V)
  /-- `if env != id { body } else els` -/
  | guard (id : Text) (body els : Stmt σ V) (hasElse : Bool)

variable {σ V : Type}

/-- Leave a block: variables declared in it go out of scope. -/
def leave (n : Nat) (s : St σ V) : St σ V := { s with locals := s.locals.drop (s.locals.length - n) }

/-- Execution under a value `env` of the environment variable. `fuel` bounds loop iterations and the depth of
calls; a computation that exceeds it ends in `outOfFuel` with the state reached. -/
def exec (env : Text) (procs : Nat → Stmt σ V) (fuel : Nat) (s : Stmt σ V) (st : St σ V) : Out σ V :=
  match s with
  | .skip => .normal st
  | .prim p => p.run st
  | .decl f => .normal { st with locals := f st :: st.locals }
  | .seq a b =>
    match exec env procs fuel a st with
    | .normal st' => exec env procs fuel b st'
    | o => o
  | .block s => (exec env procs fuel s st).mapSt (leave st.locals.length)
  | .ite c t e _ =>
    if (c st).2 then exec env procs fuel t { st with store := (c st).1 }
    else exec env procs fuel e { st with store := (c st).1 }
  | .loop c b =>
    match fuel with
    | 0 => .outOfFuel st
    | fuel + 1 =>
      if (c st).2 then
        match exec env procs fuel b { st with store := (c st).1 } with
        | .normal st' => exec env procs fuel (.loop c b) st'
        | .jump 0 st' => .normal st'
        | .jump 1 st' => exec env procs fuel (.loop c b) st'
        | o => o
      else .normal { st with store := (c st).1 }
  | .call f =>
    match fuel with
    | 0 => .outOfFuel st
    | fuel + 1 =>
      match exec env procs fuel (procs f) { st with locals := [] } with
      | .normal st' => .normal { st' with locals := st.locals }
      | .jump 2 st' => .normal { st' with locals := st.locals }
      | o => o.mapSt fun st' => { st' with locals := st.locals }
  | .cand _ s => exec env procs fuel s st
  | .guard id b e _ =>
    if env ≠ id then (exec env procs fuel b st).mapSt (leave st.locals.length)
    else exec env procs fuel e st
termination_by (fuel, s)

/-- Text `s else e`: if `s` ends with an open `if`, the `else` belongs to that `if` (`none`: it does not). -/
def attachElse : Stmt σ V → Stmt σ V → Option (Stmt σ V)
  | .ite c t _ false, e =>
    match attachElse t e with
    | some t' => some (.ite c t' .skip false)
    | none => some (.ite c t e true)
  | .ite c t e₀ true, e => (attachElse e₀ e).map fun e' => .ite c t e' true
  | .loop c b, e => (attachElse b e).map fun b' => .loop c b'
  | .guard id b _ false, e => some (.guard id b e true)
  | .guard id b e₀ true, e => (attachElse e₀ e).map fun e' => .guard id b e' true
  | _, _ => none

/-- The program that the instrumented text denotes, `ident k` being the id of the statement at `k`
(core/src/span.rs:51-58). Each candidate's text is preceded by `if … != "id" { ` and followed by ` }`
(see C05). -/
def instr (ident : Nat → Text) : Stmt σ V → Stmt σ V
  | .seq a b => .seq (instr ident a) (instr ident b)
  | .block s => .block (instr ident s)
  | .ite c t e true =>
    match attachElse (instr ident t) (instr ident e) with
    | some t' => .ite c t' .skip false
    | none => .ite c (instr ident t) (instr ident e) true
  | .ite c t e false => .ite c (instr ident t) e false
  | .loop c b => .loop c (instr ident b)
  | .cand k s => .guard (ident k) (instr ident s) .skip false
  | s => s

/-- The program with the candidates selected by `p` deleted. -/
def delete (p : Nat → Bool) : Stmt σ V → Stmt σ V
  | .seq a b => .seq (delete p a) (delete p b)
  | .block s => .block (delete p s)
  | .ite c t e h => .ite c (delete p t) (delete p e) h
  | .loop c b => .loop c (delete p b)
  | .cand k s => if p k then .skip else .cand k (delete p s)
  | s => s

/-- The candidates of a statement. -/
def cands : Stmt σ V → List Nat
  | .seq a b => cands a ++ cands b
  | .block s => cands s
  | .ite _ t e _ => cands t ++ cands e
  | .loop _ b => cands b
  | .cand k s => k :: cands s
  | _ => []

/-- The statement declares no variable in the scope it stands in. (Backends exclude declarations from the
candidates, backends/src/generic_visitor.rs:243-247.) -/
def NoDecl : Stmt σ V → Prop
  | .decl _ => False
  | .seq a b => NoDecl a ∧ NoDecl b
  | .ite _ t e _ => NoDecl t ∧ NoDecl e
  | .loop _ b => NoDecl b
  | .cand _ s => NoDecl s
  | _ => True

/-- Is a braced block. -/
def isBlock : Stmt σ V → Bool
  | .block _ => true
  | _ => false

/-- A program written with braces throughout (as Go and Rust require): the branches of an `if` and the body of a
loop are blocks, except that an `else` may be followed by another such `if`. It contains no guards of its own, and
candidates are not declarations. -/
def Braced : Stmt σ V → Prop
  | .seq a b => Braced a ∧ Braced b
  | .block s => Braced s
  | .ite _ t e h => isBlock t = true ∧ Braced t ∧ Braced e ∧
      (h = false → e = .skip) ∧ (h = true → isBlock e = true ∨ ∃ c t' e' h', e = .ite c t' e' h')
  | .loop _ b => isBlock b = true ∧ Braced b
  | .cand _ s => NoDecl s ∧ Braced s
  | .guard .. => False
  | _ => True

end Necessist.Guard
