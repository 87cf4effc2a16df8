import Verif.ML.Model

/-!
# The models as their constructors leave them
-/

namespace Verif.ML

/-- `regression/linear.rs:15-22` `LinearRegression::new`. -/
def Linear.new (n : ℕ) : Linear n := ⟨fun _ => 0, 0, 1⟩

/-- `regression/logistic.rs:17-24` `LogisticRegression::new`. -/
def Logistic.new (n : ℕ) : Logistic n := ⟨fun _ => 0, 0, 1⟩

end Verif.ML
