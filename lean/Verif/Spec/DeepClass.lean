import Verif.Spec.Exact
/-!
# Specification vocabulary: the scores of training rows that the trees can tell apart

The scores of a training row depend on two numbers only: the score of its own class and the score that all other classes have.
-/

namespace Verif

variable {K : Type} [Field K]

/-- a vector with `t` entries: `a` at position `k`, and `b` elsewhere -/
def hitMiss (t k : Nat) (a b : K) : List K := (List.range t).map (fun j => if j = k then a else b)

variable [LinearOrder K] [HasExp K]

/-- the soft-max probability of the row's own class, and that of each other class -/
def hitShare (t : Nat) (s : K × K) : K := HasExp.exp s.1 / (HasExp.exp s.1 + ((t : K) - 1) * HasExp.exp s.2)
def missShare (t : Nat) (s : K × K) : K := HasExp.exp s.2 / (HasExp.exp s.1 + ((t : K) - 1) * HasExp.exp s.2)

/-- multi-class boosting: (own class, other classes) after `n` iterations with learning rate `lr` -/
def deepScores (t : Nat) (lr : K) : Nat → K × K
  | 0 => (1 / t, 1 / t)
  | n + 1 =>
    let s := deepScores t lr n
    (s.1 + lr * (((t : K) - 1) / t / hitShare t s), s.2 - lr * (((t : K) - 1) / t / (1 - missShare t s)))

/-- AMG boosting -/
def deepAmgScores (t : Nat) (lr : K) : Nat → K × K
  | 0 => (1 / t, 1 / t)
  | n + 1 =>
    let s := deepAmgScores t lr n
    (s.1 + lr * (((t : K) - 1) / t / hitShare t s), s.2 - lr * (1 / t / hitShare t s))

end Verif
