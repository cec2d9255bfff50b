import Verif.Model.Span
/-!
# Choosing the framework

Models core/src/framework/auto.rs, core/src/framework/union.rs, `backend_for_framework` (core/src/core.rs:548-557) and
`Applicable for Identifier` (backends/src/lib.rs:71-83).
-/
namespace Necessist.Framework

/-- `Union` (core/src/framework/union.rs:25-29). -/
inductive Union (L R : Type) where
  | left (l : L)
  | right (r : R)
deriving DecidableEq, Repr

/-- A `clap::ValueEnum`: its variants and their names. Simplification: no aliases and no hidden variants (the enumerations of
the project have none). -/
structure ValueEnum (α : Type) where
  variants : List α
  name : α → Text

/-- `eq_ignore_ascii_case`-like comparison is a parameter: `fold` maps a name to its case-insensitive form. -/
def ValueEnum.fromStr {α} (e : ValueEnum α) (fold : Text → Text) (input : Text) (ignoreCase : Bool) : Option α :=
  e.variants.find? fun v => if ignoreCase then fold (e.name v) == fold input else e.name v == input

/-- Insert into a sorted list of names. -/
def insertName (n : Text) : List Text → List Text
  | [] => [n]
  | x :: xs => if compare n x = .gt then x :: insertName n xs else n :: x :: xs

/-- `names.sort()` (core/src/framework/union.rs:123) -/
def sortNames (l : List Text) : List Text := l.foldr insertName []

/-- `Union::from_str` (core/src/framework/union.rs:142-151); the message of an error is not modelled. -/
def unionFromStr {L R} (l : ValueEnum L) (r : ValueEnum R) (fold : Text → Text) (input : Text) (ignoreCase : Bool) :
    Option (Union L R) :=
  match l.fromStr fold input ignoreCase with
  | some x => some (.left x)
  | none => match r.fromStr fold input ignoreCase with
    | some x => some (.right x)
    | none => none

/-- `Union::to_possible_value` (core/src/framework/union.rs:135-140) -/
def unionName {L R} (l : ValueEnum L) (r : ValueEnum R) : Union L R → Text
  | .left x => l.name x
  | .right x => r.name x

/-- `Union::value_variants` (core/src/framework/union.rs:109-133); `flat_map` drops what cannot be parsed. -/
def unionVariants {L R} (l : ValueEnum L) (r : ValueEnum R) (fold : Text → Text) : List (Union L R) :=
  (sortNames (l.variants.map l.name ++ r.variants.map r.name)).filterMap fun n => unionFromStr l r fold n false

/-- `ValueEnum for Union` (core/src/framework/union.rs:103-152), so that unions can be nested. -/
def unionEnum {L R} (l : ValueEnum L) (r : ValueEnum R) (fold : Text → Text) : ValueEnum (Union L R) :=
  ⟨unionVariants l r fold, unionName l r⟩

/-- Why there is no implementation. -/
inductive FwError where
  /-- an applicability check or a constructor failed -/
  | failed (msg : Text)
  /-- "found multiple applicable frameworks: ..." -/
  | multiple (names : List Text)
  /-- "found no applicable frameworks" -/
  | none
deriving DecidableEq, Repr

/-- `collect::<Result<Vec<_>>>` of the applicability checks, then `flatten` (core/src/framework/auto.rs:32-46). -/
def applicableOnes {T} (applicable : T → Except Text Bool) : List T → Except FwError (List T)
  | [] => .ok []
  | t :: ts => match applicable t with
    | .error e => .error (.failed e)
    | .ok b => match applicableOnes applicable ts with
      | .error e => .error e
      | .ok rest => .ok (if b then t :: rest else rest)

/-- `to_implementation` with its errors wrapped. -/
def implOf {T I} (impl : T → Except Text (Option I)) (t : T) : Except FwError (Option I) :=
  match impl t with
  | .error e => .error (.failed e)
  | .ok i => .ok i

/-- `Auto::to_implementation` (core/src/framework/auto.rs:25-67); `none` for `fw` is `auto`. -/
def toImplementation {T I} (all : List T) (display : T → Text) (applicable : T → Except Text Bool)
    (impl : T → Except Text (Option I)) (fw : Option T) : Except FwError (Option I) :=
  match fw with
  | some t => implOf impl t
  | none =>
    match applicableOnes applicable all with
    | .error e => .error e
    | .ok [] => .ok none
    | .ok [t] => implOf impl t
    | .ok ts => .error (.multiple (ts.map display))

/-- `backend_for_framework` (core/src/core.rs:548-557). -/
def backendFor {T I} (all : List T) (display : T → Text) (applicable : T → Except Text Bool)
    (impl : T → Except Text (Option I)) (fw : Option T) : Except FwError I :=
  match toImplementation all display applicable impl fw with
  | .error e => .error e
  | .ok none => .error .none
  | .ok (some i) => .ok i

/-! ### The frameworks of the project -/

/-- `Identifier` (backends/src/lib.rs:57-69). -/
inductive Identifier where
  | anchor | foundry | go | hardhat | php | rust | vitest
deriving DecidableEq, Repr

/-- `EnumIter`: in order of declaration. -/
def Identifier.all : List Identifier := [.anchor, .foundry, .go, .hardhat, .php, .rust, .vitest]

/-- `Display for Identifier` (backends/src/lib.rs:118-122), which is also the name that clap derives. -/
def Identifier.name : Identifier → Text
  | .anchor => "anchor".toList
  | .foundry => "foundry".toList
  | .go => "go".toList
  | .hardhat => "hardhat".toList
  | .php => "php".toList
  | .rust => "rust".toList
  | .vitest => "vitest".toList

/-- The files that each looks for in the root (backends/src/anchor/mod.rs:36, foundry/mod.rs:30, go/mod.rs:95,
hardhat/mod.rs:17, php/mod.rs:113, rust/mod.rs:47, vitest/mod.rs:17). -/
def Identifier.markers : Identifier → List Text
  | .anchor => ["Anchor.toml".toList]
  | .foundry => ["foundry.toml".toList]
  | .go => ["go.mod".toList]
  | .hardhat => ["hardhat.config.ts".toList]
  | .php => ["php.xml".toList, "php.xml.dist".toList]
  | .rust => ["Cargo.toml".toList]
  | .vitest => ["vitest.config.ts".toList]

/-- Whether one of the files exists; `exists_` is `try_exists` in the root. All are looked at, so any error counts. -/
def anyExists (exists_ : Text → Except Text Bool) : List Text → Except Text Bool
  | [] => .ok false
  | m :: ms => match exists_ m with
    | .error e => .error e
    | .ok b => match anyExists exists_ ms with
      | .error e => .error e
      | .ok c => .ok (b || c)

/-- `Applicable for Identifier` (backends/src/lib.rs:71-83). -/
def Identifier.applicable (exists_ : Text → Except Text Bool) (i : Identifier) : Except Text Bool := anyExists exists_ i.markers

/-- `Singleton` (core/src/framework/auto.rs:10-14). -/
def autoEnum : ValueEnum Unit := ⟨[()], fun _ => "auto".toList⟩

/-- The values of `--framework` (`Auto<Identifier>`, core/src/framework/auto.rs:69-92). -/
def frameworkEnum : ValueEnum (Union Unit Identifier) := unionEnum autoEnum ⟨Identifier.all, Identifier.name⟩ id

end Necessist.Framework
