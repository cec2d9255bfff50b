import Verif.Model.Text
/-!
# Warnings

Models core/src/warn.rs.
-/
namespace Necessist

/-- `Warning` (core/src/warn.rs:13-37). -/
inductive Warning where
  | all | databaseDoesNotExist | directiveUnrecognized | dryRunFailed | filesChanged
  | ignoredFunctionsUnsupported | ignoredMacrosUnsupported | ignoredMethodsUnsupported
  | instrumentationNonbuildable | itMessageNotFound | localFunctionAmbiguous | modulePathUnknown
  | optionDeprecated | outputInvalid | parsingFailed | runTestFailed | skipFileMispositioned
deriving DecidableEq, Repr

/-- `State` (core/src/warn.rs:82-88). -/
structure WState where
  allowMsg : Bool
  bugMsg : Bool
  emitted : Bool
deriving DecidableEq, Repr

/-- `WARNING_STATE_MAP` (core/src/warn.rs:90): an absent entry is the empty state (:107-109). -/
abbrev WStates := Warning → WState

/-- The map at program start. -/
def WStates.init : WStates := fun _ => ⟨false, false, false⟩

/-- `*map.entry(w) = s`. -/
def WStates.set (st : WStates) (w : Warning) (s : WState) : WStates := fun w' => if w' = w then s else st w'

/-- The options `warn_internal` consults (core/src/core.rs:88-111). -/
structure WarnOpts where
  allow : List Warning
  deny : List Warning
  quiet : Bool
deriving DecidableEq, Repr

/-- `may_be_bug` (core/src/warn.rs:185-207); on `All` it is `unreachable!`, guarded by the assertion at
core/src/warn.rs:99. -/
def mayBeBug : Warning → Bool
  | .instrumentationNonbuildable | .modulePathUnknown | .runTestFailed => true
  | _ => false

/-- The parts of a message: what the caller passed, and whether the bug paragraph (core/src/warn.rs:78-80) and
the `--allow` hint (:131-139) were appended. Styling of the word `Warning` and the concatenation of the parts
into one string (:141-155, 160-165) are not modelled. -/
structure WarnMsg where
  warning : Warning
  source : Option Text
  msg : Text
  bug : Bool
  allowHint : Bool
deriving DecidableEq, Repr

/-- What one call does: returns an error, returns without printing, prints, or panics. -/
inductive WarnResult where
  | bail (m : WarnMsg)
  | silent
  | print (m : WarnMsg)
  | panic
deriving DecidableEq, Repr

/-- One call of `warn`/`source_warn` (core/src/warn.rs:50-76). -/
structure WarnCall where
  warning : Warning
  source : Option Text
  msg : Text
  once : Bool
deriving DecidableEq, Repr

/-- `warn_internal` (core/src/warn.rs:92-158). -/
def warnInternal (o : WarnOpts) (st : WStates) (c : WarnCall) : WarnResult × WStates :=
  if c.warning = .all then (.panic, st)
  else
    let s := st c.warning
    let bug := mayBeBug c.warning && !s.bugMsg
    let s := { s with bugMsg := s.bugMsg || bug }
    if o.deny.contains .all || o.deny.contains c.warning then
      (.bail ⟨c.warning, c.source, c.msg, bug, false⟩, st.set c.warning s)
    else if o.quiet || o.allow.contains .all || o.allow.contains c.warning || (c.once && s.emitted) then
      (.silent, st.set c.warning s)
    else
      let hint := !s.allowMsg
      (.print ⟨c.warning, c.source, c.msg, bug, hint⟩,
        st.set c.warning { s with allowMsg := true, emitted := true })

/-- The results of a sequence of calls, starting in state `st`. -/
def warnHistory (o : WarnOpts) (st : WStates) : List WarnCall → List WarnResult
  | [] => []
  | c :: cs => let (r, st) := warnInternal o st c; r :: warnHistory o st cs

end Necessist
