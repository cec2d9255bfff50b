import Verif.Lemmas.RunKeep
import Verif.Spec.Run
/-! A run deals only with its own files, candidates and tests. -/
namespace Necessist.Run

variable {σ α β : Type}

namespace Only
variable {P : Event → Prop} {env : Env σ} {cfg : Cfg}

/-- The invariant. -/
def J (P : Event → Prop) (w : World σ) : Prop := ∀ s ∈ w.trace, P s.event

theorem kNote {e : Event} (he : P e) : Keeps (J P) (note e : M σ Unit) := by
  intro w h s hs
  rcases List.mem_append.1 hs with hs | hs
  · exact h s hs
  · rw [List.mem_singleton.1 hs]; exact he

theorem kSay (l : Line) : Keeps (J (σ := σ) P) (say cfg l) := by
  intro w h
  unfold say
  dsimp only
  split <;> exact h

theorem kAsk {f : World σ → Reply σ α} : Keeps (J P) (ask f) := fun _ h => h

theorem kAskTry {f : World σ → Reply σ α} : Keeps (J P) (askTry f) := by
  intro w h
  unfold askTry
  dsimp only
  cases (f w).res <;> exact h

theorem kWarnM (c : WarnCall) : Keeps (J (σ := σ) P) (warnM cfg c) := by
  intro w h
  unfold warnM
  rcases warnInternal cfg.warn w.warns c with ⟨r, st⟩
  cases r with
  | bail m => exact h
  | silent => exact h
  | print m => exact kSay _ _ h
  | panic => exact h

theorem kUpdateProgress (mm : Option Mismatch) (n : Nat) : Keeps (J (σ := σ) P) (updateProgress cfg mm n) := by
  refine .bind ?_ fun _ _ h => h
  split
  · exact .ret _
  · exact kWarnM _
  · exact kWarnM _

theorem kSkipPastM (s : Skipped) : Keeps (J (σ := σ) P) (skipPastM cfg s) :=
  fun _ h => kUpdateProgress _ _ _ h

theorem kCheckCtrlc (hP : ∀ b, P (.ctrlc b)) : Keeps (J P) (checkCtrlc env) := by
  intro w h
  refine Keeps.bind (J := J P) (kNote (hP _)) (fun _ => ?_) { w with ext := (env.ctrlc w).2 } h
  split
  · exact .fail _
  · exact .ret _

theorem kWriteFile (f : SourceFile) (t : Text) : Keeps (J P) (writeFile env f t) := by
  intro w h
  unfold writeFile
  rcases hw : env.write w f t with ⟨_ | _, ext⟩ <;> exact h

theorem kInsertRow (r : Removal) (hP : ∀ row : Row, row.span = r.span.display → P (.insert row)) : Keeps (J P) (insertRow env r) := by
  intro w h
  unfold insertRow
  rcases w.db with _ | rows
  · exact h
  · refine Keeps.bind kAsk (fun url w h => ?_) w h
    dsimp only
    split
    · exact h
    · exact kNote (P := P) (e := .insert (Row.ofRemoval url r)) (hP _ rfl) { w with db := some (rows ++ [Row.ofRemoval url r]) } h

theorem kEmit (r : Removal) (hP : ∀ row : Row, row.span = r.span.display → P (.insert row)) : Keeps (J P) (emit cfg env r) := by
  refine .bind (kInsertRow r hP) fun _ => ?_
  unfold emitToConsole
  split
  · exact kSay _
  · exact .ret _

variable {files : List SourceFile} {all : List Candidate}

theorem kSkipPresent (cs : List Candidate) (hc : ∀ c ∈ cs, c ∈ all) : Keeps (J (Meant files all)) (skipPresent cfg env cs) := by
  induction cs with
  | nil => exact .ret _
  | cons c cs ih =>
    intro w h
    refine Keeps.bind (J := J (Meant files all)) ?_ (fun _ => ih fun x hx => hc x (List.mem_cons_of_mem _ hx)) w h
    split
    · exact .bind (.orPanic _) fun _ => kInsertRow _ fun row hr => ⟨c, hc c List.mem_cons_self, hr⟩
    · exact .ret _

theorem kPerformExec (c : Candidate) (t : Text) (b : Bool) (h : c ∈ all ∧ t ∈ c.tests) :
    Keeps (J (Meant files all)) (performExec cfg env c t b) := by
  refine .bind (kNote h) fun _ => .bind kAsk fun p => .bind (fun _ h => h) fun status => ?_
  cases status with
  | some s =>
    refine .bind ?_ fun _ => .ret _
    split
    · exact kAsk
    · exact .ret _
  | none => exact .bind (kNote h) fun _ => .bind kAsk fun _ => .bind kAsk fun _ => .ret _

theorem kOneTest (c : Candidate) (ex : Bool) (t : Text) (h : c ∈ all ∧ t ∈ c.tests) :
    Keeps (J (Meant files all)) (oneTest cfg env c ex t) := by
  refine .bind (kNote h) fun _ => .bind kAsk fun r => .bind ?_ fun _ => .bind (kNote h) fun _ => .ret _
  cases r with
  | some b => exact kPerformExec c t b h
  | none =>
    dsimp only
    split
    · exact .ret _
    · exact .panics

theorem kRunTests (c : Candidate) (ex : Bool) (ts : List Text) (acc : Option Outcome) (hc : c ∈ all) (ht : ∀ t ∈ ts, t ∈ c.tests) :
    Keeps (J (Meant files all)) (runTests cfg env c ex ts acc) := by
  induction ts generalizing acc with
  | nil => exact .ret _
  | cons t ts ih =>
    have ih := fun acc => ih acc fun x hx => ht x (List.mem_cons_of_mem _ hx)
    unfold runTests
    split
    · exact ih _
    · exact .bind (kOneTest c ex t ⟨hc, ht t List.mem_cons_self⟩) fun r => ih r

theorem kTestAndRecord (c : Candidate) (text : Text) (ex : Bool) (hc : c ∈ all) :
    Keeps (J (Meant files all)) (testAndRecord cfg env c text ex) := by
  refine .bind (kRunTests _ _ _ _ hc fun _ h => h) fun o => .bind (kCheckCtrlc fun _ => trivial) fun _ => .bind ?_ fun _ =>
    kUpdateProgress _ _
  cases o with
  | some o => exact kEmit _ fun row hr => ⟨c, hc, hr⟩
  | none => exact .ret _

theorem kWithBackup {m : M σ α} (f : SourceFile) (h : Keeps (J P) m) : Keeps (J P) (withBackup env f m) := by
  refine .bind kAsk fun _ w hw => ?_
  exact Keeps.finally_ (c := fun w' => { w' with fs := upd w'.fs f (w.fs f) }) h (fun _ h => h) w hw

theorem J_dropInstr {w : World σ} (h : J P w) : J P (dropInstr w) := by
  unfold dropInstr
  split <;> exact h

theorem kOneCandidate (c : Candidate) (hc : c ∈ all) : Keeps (J (Meant files all)) (oneCandidate cfg env c) := by
  intro w h
  have h' : J (Meant files all) (if c.kind ≠ .statement then dropInstr w else w) := by
    split
    · exact J_dropInstr h
    · exact h
  refine Keeps.bind (J := J (Meant files all)) (.orPanic _) (fun text w h => ?_) _ h'
  split
  · refine kWithBackup _ ?_ w h
    exact .bind (.orPanic _) fun _ => .bind (kWriteFile _ _) fun _ => kTestAndRecord _ _ _ hc
  · exact kTestAndRecord _ _ _ hc w h

theorem skipPast_mem (mm : Option Mismatch) (cs : List Candidate) (past : List Removal) : ∀ c ∈ (skipPast mm cs past).rest, c ∈ cs := by
  fun_induction skipPast mm cs past with
  | case1 => intro c h; exact h
  | case2 => intro c h; exact h
  | case3 => intro c h; exact h
  | case4 _ _ _ _ _ _ _ ih => intro c h; exact List.mem_cons_of_mem _ (ih c h)
  | case5 _ _ _ _ _ _ ih => intro c h; exact ih c h

theorem kCandidateLoop (cs : List Candidate) (hc : ∀ c ∈ cs, c ∈ all) : Keeps (J (Meant files all)) (candidateLoop cfg env cs) := by
  suffices ∀ n cs, cs.length ≤ n → (∀ c ∈ cs, c ∈ all) → Keeps (J (Meant files all)) (candidateLoop cfg env cs) from
    this _ cs (Nat.le_refl _) hc
  intro n
  induction n with
  | zero =>
    intro cs hn hc w h
    unfold candidateLoop
    refine Keeps.bind (kSkipPastM _) (fun _ => ?_) w h
    have := skipPast_length none cs w.past
    split
    · exact .ret _
    · rename_i hr; rw [hr] at this; simp at this; omega
  | succ n ih =>
    intro cs hn hc w h
    unfold candidateLoop
    refine Keeps.bind (kSkipPastM _) (fun _ => ?_) w h
    have := skipPast_length none cs w.past
    have hm := skipPast_mem none cs w.past
    split
    · exact .ret _
    · rename_i hr
      rw [hr] at this hm
      exact .bind (kOneCandidate _ (hc _ (hm _ List.mem_cons_self))) fun _ =>
        ih _ (by simp at this; omega) fun c h => hc _ (hm _ (List.mem_cons_of_mem _ h))

theorem kWraps (cs : List Candidate) : Keeps (J P) (wraps env cs) := by
  induction cs with
  | nil => exact .ret _
  | cons c cs ih => exact .bind kAsk fun _ => .bind ih fun _ => .ret _

theorem kInstrumentStatements (f : SourceFile) (cs : List Candidate) (hf : f ∈ files) :
    Keeps (J (Meant files all)) (instrumentStatements cfg env f cs) := by
  refine .bind kAsk fun _ w h => ?_
  have hb : Keeps (J (Meant files all)) (instrumentBody cfg env f cs) := by
    refine .bind kAsk fun _ => .bind (kWraps _) fun _ => .bind (.orPanic _) fun _ =>
      .bind (kWriteFile _ _) fun _ => .bind (kNote hf) fun _ => .bind kAskTry fun r => ?_
    cases r with
    | ok _ => exact .ret _
    | error _ => exact .bind (kNote hf) fun _ => .bind (kWarnM _) fun _ => .ret _
  have := hb w h
  rcases hi : instrumentBody cfg env f cs w with ⟨r, w'⟩
  rw [hi] at this
  cases r with
  | ok b => cases b <;> exact this
  | err e => exact this
  | panic => exact this
  | hang => exact this

theorem kOneFile (f : SourceFile) (cs : List Candidate) (hf : f ∈ files) (hc : ∀ c ∈ cs, c ∈ all) :
    Keeps (J (Meant files all)) (oneFile cfg env f cs) := by
  refine .bind (kSay _) fun _ => .bind (kNote hf) fun _ => .bind kAskTry fun r => ?_
  cases r with
  | error _ =>
    exact .bind (kNote hf) fun _ => .bind (kWarnM _) fun _ => .bind (kCheckCtrlc fun _ => trivial) fun _ =>
      .bind (kSkipPresent _ hc) fun _ => kUpdateProgress _ _
  | ok _ =>
    exact .bind (kCheckCtrlc fun _ => trivial) fun _ => .bind (kSay _) fun _ =>
      .finally_ (.bind (kInstrumentStatements _ _ hf) fun _ => kCandidateLoop _ hc) fun w h => J_dropInstr h

theorem kRunFiles (fcs : List (SourceFile × List Candidate)) (hf : ∀ x ∈ fcs, x.1 ∈ files) (hc : ∀ x ∈ fcs, ∀ c ∈ x.2, c ∈ all) :
    Keeps (J (Meant files all)) (runFiles cfg env fcs) := by
  induction fcs with
  | nil => exact .ret _
  | cons x fcs ih =>
    obtain ⟨f, cs⟩ := x
    intro w h
    have hm := skipPast_mem none cs w.past
    refine Keeps.bind (J := J (Meant files all)) (kSkipPastM _)
      (fun _ => .bind ?_ fun _ => ih (fun x hx => hf x (List.mem_cons_of_mem _ hx)) fun x hx => hc x (List.mem_cons_of_mem _ hx)) w h
    split
    · exact .ret _
    · exact kOneFile _ _ (hf _ List.mem_cons_self) fun c h => hc _ List.mem_cons_self c (hm c h)

end Only

/-- However a run ends, every event concerns one of its files, candidates and tests. -/
theorem run_meant (cfg : Cfg) (env : Env σ) (fcs : List (SourceFile × List Candidate)) (w : World σ) (ht : w.trace = []) :
    ∀ s ∈ (runFiles cfg env fcs w).2.trace, Meant (fcs.map (·.1)) (fcs.flatMap (·.2)) s.event := by
  refine Only.kRunFiles fcs (fun x hx => List.mem_map.2 ⟨x, hx, rfl⟩) (fun x hx c hc => ?_) w ?_
  · exact List.mem_flatMap.2 ⟨x, hx, hc⟩
  · unfold Only.J; rw [ht]; exact fun _ h => absurd h List.not_mem_nil

end Necessist.Run
