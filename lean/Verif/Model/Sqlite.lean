import Verif.Model.Run
/-!
# The database: opening, loading, dumping

Models core/src/sqlite.rs (`init`), and from core/src/core.rs `sqlite_and_past_removals_init_lazy`, `dump`, and the
beginning of `run`.
-/
namespace Necessist.Run

/-- The file `necessist.db`: absent, present without a table, or present with a table of rows. -/
inductive DbFile where
  | absent
  | empty
  | table (rows : List Row)
deriving DecidableEq, Repr

/-- The three options that matter (core/src/sqlite.rs:70-76). -/
structure DbFlags where
  dump : Bool
  reset : Bool
  resume : Bool
deriving DecidableEq, Repr

/-- Which SQLite operations fail. -/
structure DbFaults where
  stat : Bool
  establish : Bool
  drop : Bool
  create : Bool
  load : Bool
deriving DecidableEq, Repr

/-- Why the database cannot be used. -/
inductive DbError where
  /-- "found an sqlite database …; please pass either --reset or --resume" -/
  | exists_
  /-- "--dump was passed, but no sqlite database found …" -/
  | nothingToDump
  /-- the warning is denied -/
  | denied
  /-- an operation of SQLite or of the file system failed -/
  | io
  /-- a row cannot be understood -/
  | row
deriving DecidableEq, Repr

/-- `Removal::into_internal_removal` (core/src/sqlite.rs:53-67). -/
def Row.toRemoval (readable : SourceFile → Bool) (r : Row) : Res DbError Removal :=
  match Span.parse readable r.span with
  | .ok span =>
    match Outcome.parse r.outcome with
    | some outcome => .ok ⟨span, r.text, outcome⟩
    | none => .err .row
  | .err _ => .err .row
  | .panic => .panic
  | .hang => .hang

/-- Collecting the rows into a `Result<Vec<_>>` (core/src/sqlite.rs:127-130): stops at the first failure. -/
def loadRows (readable : SourceFile → Bool) : List Row → Res DbError (List Removal)
  | [] => .ok []
  | r :: rs =>
    match r.toRemoval readable with
    | .ok x =>
      match loadRows readable rs with
      | .ok xs => .ok (x :: xs)
      | e => e
    | .err e => .err e
    | .panic => .panic
    | .hang => .hang

/-- What `sqlite::init` leaves: its result, the database file, the warning states, and what was printed. -/
structure DbInit where
  res : Res DbError (List Removal)
  file : DbFile
  warns : WStates
  out : List Line

/-- The part of `sqlite::init` after the checks (core/src/sqlite.rs:110-131). `establish` creates the file if it does
not exist. Not modelled: the git remote (:133-150), which only affects URLs. -/
def dbOpen (readable : SourceFile → Bool) (faults : DbFaults) (flags : DbFlags) (file : DbFile) :
    Res DbError (List Removal) × DbFile :=
  if faults.establish then (.err .io, file)
  else
    let exists_ := decide (file ≠ .absent)
    let file := if file = .absent then .empty else file
    let dropped : Option DbFile :=
      if flags.reset && exists_ then
        match file with
        | .table _ => if faults.drop then none else some .empty
        | _ => none
      else some file
    match dropped with
    | none => (.err .io, file)
    | some file =>
      if flags.reset || !exists_ then
        if faults.create then (.err .io, file) else (.ok [], .table [])
      else
        match file with
        | .table rows => if faults.load then (.err .io, file) else (loadRows readable rows, file)
        | _ => (.err .io, file)

/-- The warning that there is no database (core/src/sqlite.rs:82-87, 98-109), without the path of the file. -/
def noDatabaseCall (flag : Text) : WarnCall :=
  ⟨.databaseDoesNotExist, none, "no sqlite database to ".toList ++ flag ++ "; creating new database".toList, true⟩

/-- `sqlite::init` (core/src/sqlite.rs:70-153). -/
def dbInit (w : WarnOpts) (st : WStates) (readable : SourceFile → Bool) (faults : DbFaults) (flags : DbFlags)
    (file : DbFile) : DbInit :=
  if faults.stat then ⟨.err .io, file, st, []⟩
  else
    let warnThen (flag : Text) : DbInit :=
      match warnInternal w st (noDatabaseCall flag) with
      | (.bail _, st) => ⟨.err .denied, file, st, []⟩
      | (.panic, st) => ⟨.panic, file, st, []⟩
      | (.silent, st) => let (r, f) := dbOpen readable faults flags file; ⟨r, f, st, []⟩
      | (.print m, st) => let (r, f) := dbOpen readable faults flags file; ⟨r, f, st, if w.quiet then [] else [.warning m]⟩
    match decide (file ≠ .absent), flags.dump, flags.reset, flags.resume with
    | true, false, false, false => ⟨.err .exists_, file, st, []⟩
    | false, true, _, _ => ⟨.err .nothingToDump, file, st, []⟩
    | false, _, true, _ => warnThen "reset".toList
    | false, _, _, true => warnThen "resume".toList
    | _, _, _, _ => let (r, f) := dbOpen readable faults flags file; ⟨r, f, st, []⟩

/-- Insertion before the first removal whose span is not smaller. -/
def insertPast (r : Removal) : List Removal → List Removal
  | [] => [r]
  | x :: xs => if (r.span.cmp x.span).isLE then r :: x :: xs else x :: insertPast r xs

/-- `past_removals.sort_by(|left, right| left.span.cmp(&right.span))` (core/src/core.rs:957). The result of a stable sort
does not depend on the algorithm; here insertion sort. -/
def sortPast (rs : List Removal) : List Removal := rs.foldr insertPast []

/-- `sqlite_and_past_removals_init_lazy` (core/src/core.rs:935-966): the past removals; with `--no-sqlite` none, and
the database is left alone. (`get_or_try_init` makes it happen at most once.) -/
def pastInit (noSqlite : Bool) (w : WarnOpts) (st : WStates) (readable : SourceFile → Bool) (faults : DbFaults)
    (flags : DbFlags) (file : DbFile) : DbInit :=
  if noSqlite then ⟨.ok [], file, st, []⟩
  else
    let i := dbInit w st readable faults flags file
    { i with res := match i.res with | .ok rs => .ok (sortPast rs) | r => r }

/-- The loop of `dump` (core/src/core.rs:536-541): what is printed, and whether anything had another outcome than
"passed". -/
def dumpLoop (quiet verbose : Bool) : List Removal → Bool → List Removal × Bool
  | [], other => ([], other)
  | r :: rs, other =>
    let (out, other) := dumpLoop quiet verbose rs (other || r.outcome != .passed)
    (if !quiet && (verbose || r.outcome == .passed) then (r :: out, other) else (out, other))

/-- `dump` (core/src/core.rs:536-546): what is printed, and whether the note about `--verbose` follows. `note` prints
nothing if quiet (core/src/warn.rs:165-181). -/
def dump (quiet verbose : Bool) (rs : List Removal) : List Removal × Bool :=
  let (out, other) := dumpLoop quiet verbose rs false
  (out, !quiet && !verbose && other)

/-- How the program was called, as far as the database is concerned. -/
structure Call where
  noSqlite : Bool
  flags : DbFlags
  faults : DbFaults
  /-- which source files can be read -/
  readable : SourceFile → Bool

/-- `--dump` (core/src/core.rs:225-229, in `prepare`): the database is opened and the past removals printed; nothing else
is done. Gives the removals printed and whether the note follows. -/
def dumpWhole (call : Call) (w : WarnOpts) (verbose : Bool) (st : WStates) (file : DbFile) :
    Res DbError (List Removal × Bool) × DbFile :=
  let i := pastInit call.noSqlite w st call.readable call.faults call.flags file
  (match i.res with
    | .ok past => .ok (dump w.quiet verbose past)
    | .err e => .err e
    | .panic => .panic
    | .hang => .hang, i.file)

/-- `run` (core/src/core.rs:310-433): get the past removals, then go through the files. `ctrlc::set_handler` (:311) is
not modelled. The world's database and past removals are set here; its warnings and output carry on. The database file
is what SQLite has committed (every statement is its own transaction). -/
def runWhole {σ : Type} (call : Call) (cfg : Cfg) (env : Env σ) (fcs : List (SourceFile × List Candidate)) (file : DbFile)
    (w : World σ) : Res (DbError ⊕ Err) Unit × DbFile × World σ :=
  let i := pastInit call.noSqlite cfg.warn w.warns call.readable call.faults call.flags file
  let w := { w with warns := i.warns, out := w.out ++ i.out }
  match i.res with
  | .err e => (.err (.inl e), i.file, w)
  | .panic => (.panic, i.file, w)
  | .hang => (.hang, i.file, w)
  | .ok past =>
    let db := if call.noSqlite then none else match i.file with | .table rows => some rows | _ => none
    let (r, w) := runFiles cfg env fcs { w with db, past }
    (match r with | .ok u => .ok u | .err e => .err (.inr e) | .panic => .panic | .hang => .hang,
      match w.db with | some rows => .table rows | none => i.file, w)

end Necessist.Run
