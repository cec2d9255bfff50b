import Verif.Model.Limit
/-! What the limit on the number of threads should be, whenever something is executed. -/
namespace Necessist.Limit

/-- `calls` is what was executed, with the soft limit each time, by a process whose soft and hard limits were `soft` and `hard`: the threads
are counted once, before the first test; tests are executed with 1024 more than that, or the hard limit if that is less; everything else is
executed with the limit that the user had set. At first, `known` is the number of threads if they have been counted before. -/
def Right (soft hard : Nat) : (known : Option Nat) → (calls : List (Call × Nat)) → Prop
  | _, [] => True
  | known, (.count answer, l) :: calls => known = none ∧ l = soft ∧ (answer = none → calls = []) ∧ Right soft hard answer calls
  | known, (.start _ _, l) :: calls => (∃ n, known = some n ∧ l = min hard (n + 1024)) ∧ Right soft hard known calls
  | known, (.other, l) :: calls => l = soft ∧ Right soft hard known calls

/-- The last thing that was executed is a test. -/
def EndsInTest (calls : List (Call × Nat)) : Prop := ∃ l s t n, calls = l ++ [(.start s t, n)]

end Necessist.Limit
