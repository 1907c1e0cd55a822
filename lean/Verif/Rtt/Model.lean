/-
Model of ndn-cxx/util/rtt-estimator.{hpp,cpp}.

Durations are integers (nanoseconds). The floating-point moving average
`duration_cast<nanoseconds>((1 - w) * old + w * new)`, `w = weight / nExpectedSamples`, is an
arbitrary function `mix` of the weight (alpha or beta), the number of expected samples, the old value
and the new value. An integer computation outside the range of `int64_t` is undefined behaviour: the
outcome is `none`.
-/
namespace Ndn.Rtt

/-- `RttEstimator::Options`, rtt-estimator.hpp 45-54. -/
structure Options where
  initialRto : Int
  minRto : Int
  maxRto : Int
  k : Int
  multiplier : Int

/-- The assertions of the constructor, rtt-estimator.cpp 35-41 (those on alpha and beta concern `mix`). -/
structure Options.Ok (o : Options) : Prop where
  initial : 0 ≤ o.initialRto
  min : 0 ≤ o.minRto
  max : o.minRto ≤ o.maxRto
  k : 0 ≤ o.k
  multiplier : 1 ≤ o.multiplier

inductive Weight where
  | alpha | beta
  deriving DecidableEq

abbrev Mix := Weight → Nat → Int → Int → Int

/-- Members of `RttEstimator` and of `RttEstimatorWithStats`, rtt-estimator.hpp 115-118 and 177-181. -/
structure St where
  sRtt : Int
  rttVar : Int
  rto : Int
  rttMin : Int
  rttMax : Int
  rttAvg : Int
  n : Int
  deriving DecidableEq, Repr

/-- The constructors, rtt-estimator.cpp 31-42, rtt-estimator.hpp 177-181. -/
def init (o : Options) : St := ⟨-1, -1, o.initialRto, 2 ^ 63 - 1, - 2 ^ 63, 0, 0⟩

/-- `int64_t` arithmetic. -/
def i64 (x : Int) : Option Int := if - 2 ^ 63 ≤ x ∧ x < 2 ^ 63 then some x else none

/-- `std::clamp`. -/
def clamp (v lo hi : Int) : Int := if v < lo then lo else if hi < v then hi else v

/-- `hasSamples`, rtt-estimator.hpp 74-78. -/
def hasSamples (s : St) : Bool := s.sRtt ≠ -1

/-- The RTO computation, rtt-estimator.cpp 61-62. -/
def computeRto (o : Options) (sRtt rttVar : Int) : Option Int :=
  (i64 (o.k * rttVar)).bind fun kv => (i64 (sRtt + kv)).map fun r => clamp r o.minRto o.maxRto

/-- `RttEstimator::addMeasurement`, rtt-estimator.cpp 44-63 (`rtt ≥ 0` and `nExpected > 0` are asserted). -/
def addMeasurement (o : Options) (mix : Mix) (s : St) (rtt : Int) (nExpected : Nat) : Option St :=
  let sRtt := if hasSamples s then mix .alpha nExpected s.sRtt rtt else rtt
  let rttVar := if hasSamples s then mix .beta nExpected s.rttVar (s.sRtt - rtt).natAbs else rtt.tdiv 2
  (computeRto o sRtt rttVar).map fun r => { s with sRtt := sRtt, rttVar := rttVar, rto := r }

/-- `backoffRto`, rtt-estimator.cpp 65-70. -/
def backoffRto (o : Options) (s : St) : Option St :=
  (i64 (s.rto * o.multiplier)).map fun r => { s with rto := clamp r o.minRto o.maxRto }

/-- `RttEstimatorWithStats::addMeasurement`, rtt-estimator.cpp 72-81. -/
def addWithStats (o : Options) (mix : Mix) (s : St) (rtt : Int) (nExpected : Nat) : Option St :=
  (addMeasurement o mix s rtt nExpected).bind fun s =>
    (i64 (s.n * s.rttAvg)).bind fun p => (i64 (p + rtt)).map fun q =>
      { s with rttAvg := q.tdiv (s.n + 1), rttMax := max rtt s.rttMax, rttMin := min rtt s.rttMin, n := s.n + 1 }

inductive Op where
  | measure (rtt : Int) (nExpected : Nat)
  | backoff

def step (o : Options) (mix : Mix) (s : St) : Op → Option St
  | .measure rtt n => addWithStats o mix s rtt n
  | .backoff => backoffRto o s

def run (o : Options) (mix : Mix) : St → List Op → Option St
  | s, [] => some s
  | s, op :: ops => (step o mix s op).bind fun s => run o mix s ops

end Ndn.Rtt
