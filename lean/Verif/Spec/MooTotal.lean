import Verif.Props.NSGA2Evolution

/-! # Specification: NSGA-II configurations whose parts never raise -/

namespace Verif.Moo
open PyM
variable {G : Type}

/-- The genomes of all individuals created so far satisfy `P`. -/
def AllHave (P : G → Prop) (s : MWorld G) : Prop := ∀ r < s.next, P (s.genome r)

/-- Given as many individuals as its arity says, the operator returns the individuals it was given (it works in
place), keeps `P`, and does not touch the fitness of others. -/
def MOp.WorksOn (P : G → Prop) (o : MOp G) : Prop :=
  ∀ refs s, Exist s refs → refs.length = o.arity → AllHave P s → wp (o.apply refs) (fun res s' =>
    res = some refs ∧ AllHave P s' ∧ ∀ r < s.next, r ∉ refs → s'.fits r = s.fits r) s

/-- Asked to select from `n` individuals into a list that has already as many, the selection method returns,
keeps `P`, and does not touch the fitness of existing individuals. -/
def MSel.WorksOn (P : G → Prop) (n : Nat) (sel : MSel G) : Prop :=
  ∀ source dest s, Exist s source → AllHave P s → source.length = n → n ≤ dest.length →
    wp (sel.select source dest) (fun _ s' => AllHave P s' ∧ ∀ r < s.next, s'.fits r = s.fits r) s

/-- What the termination checker is given in a run: a population of `n` distinct individuals which all have their `m`
objectives, and a best of the run which has objectives. -/
def MConsulted (n m : Nat) (fits : Nat → Fit) (inds : List Nat) (best : Option Nat) : Prop :=
  inds.length = n ∧ inds.Nodup ∧ (∀ r ∈ inds, ∃ v, (fits r).objs = some v ∧ v.length = m) ∧
    ∃ b v, best = some b ∧ (fits b).objs = some v

/-- A configuration no part of which raises, with `NSGA2Breeder`: there are `n > 0` individuals, all arities
divide `n`, and creator, operators, selection method, evaluator and termination checker work. -/
structure MCfg.Sound (P : G → Prop) (c : MCfg G) (n m : Nat) (ds : List Bool) : Prop extends c.Good n m ds where
  breeder : c.nsga2Breeder = true
  size : 0 < n
  create : ∀ s, AllDir m ds s → AllHave P s → wp c.sub.create (fun l s' => AllHave P s' ∧
    ∀ r ∈ l, (s'.fits r).objs = none) s
  arities : ∀ o ∈ c.sub.ops, o.arity ≠ 0 ∧ o.arity ∣ n
  operate : ∀ o ∈ c.sub.ops, o.WorksOn P
  select : ∃ sel rest, c.sub.sels = sel :: rest ∧ sel.WorksOn P n
  evaluate : ∀ g, P g → Total (c.sub.evaluate g)
  sched : ∀ g k, (c.sched g k).Perm (List.range k)
  calm : ∀ h l b g, MConsulted n m h l b → ∃ v, c.checker h l b g = .ok v

/-- How a run that went well ends: the population has `n` distinct individuals, all with `m` objectives and with
genomes satisfying `P`; there is a best of the run, and it has objectives. -/
def MCompleted (P : G → Prop) (n m : Nat) (s : MRun G) : Prop :=
  ∃ is b v, s.inds = some is ∧ is.length = n ∧ is.Nodup ∧
    (∀ r ∈ is, P (s.w.genome r) ∧ ∃ u, (s.w.fits r).objs = some u ∧ u.length = m) ∧
    s.bestOfRun = some b ∧ (s.w.fits b).objs = some v

end Verif.Moo
