import Verif.Props.GPMutation

/-! # C09 without helpers: which terminals are numbers, and which numbers they are -/

namespace Verif.GP

/-- The value of a number: integers and floats are themselves, `True` is 1 and `False` is 0. -/
inductive Data.Means : Data → ℚ → Prop
  | int (z : ℤ) : Means (.int z) z
  | float (q : ℚ) : Means (.float q) q
  | true : Means (.bool Bool.true) 1
  | false : Means (.bool Bool.false) 0

theorem Data.num?_iff (d : Data) (q : ℚ) : d.num? = some q ↔ d.Means q := by
  constructor
  · intro h
    cases d with
    | str s => cases h
    | int z =>
      cases h
      exact .int z
    | float x =>
      cases h
      exact .float _
    | bool b =>
      cases b <;> cases h
      · exact .false
      · exact .true
    | obj k ty => cases h
  · rintro (_ | _ | _ | _) <;> rfl

/-- Not an instance of a class of the user. -/
def Data.BuiltIn (d : Data) : Prop := ∀ k ty, d ≠ .obj k ty

theorem Data.BuiltIn.isNumber_iff {d : Data} (h : d.BuiltIn) : d.isNumber = true ↔ ∃ q, d.Means q := by
  cases d with
  | str s => exact ⟨fun h => (by cases h), fun ⟨_, h⟩ => by cases h⟩
  | int z => exact ⟨fun _ => ⟨_, .int z⟩, fun _ => rfl⟩
  | float q => exact ⟨fun _ => ⟨_, .float q⟩, fun _ => rfl⟩
  | bool b => exact ⟨fun _ => by cases b; exacts [⟨_, .false⟩, ⟨_, .true⟩], fun _ => rfl⟩
  | obj k ty => exact absurd rfl (h k ty)

/-- **C09**, for the types of Python: ERC mutation of individuals holding legal programs whose terminals are strings, integers, floats
and truth values never raises.  If some individual has no number among its terminals, nothing changes; otherwise in every
individual one terminal that is a number is replaced by the float which is its value plus the noise, and nothing else changes. -/
theorem C09_erc_mutation_builtin (inds : List Ind) (ps : List Prog) (h : List.Forall₂ Represents inds ps)
    (hb : ∀ p ∈ ps, ∀ vt ∈ p.terms, vt.1.data.BuiltIn) (mu sigma : ℚ) (tape : Tape) :
    ∃ out tape', ercMutation mu sigma inds tape = (.ok out, tape') ∧
      ((∃ p ∈ ps, ∀ vt ∈ p.terms, ∀ q, ¬ vt.1.data.Means q) → out = inds) ∧
      ((∀ p ∈ ps, ∃ vt ∈ p.terms, ∃ q, vt.1.data.Means q) → List.Forall₂ (fun x ind' =>
        ∃ (C : Ctx) (v v' : Val) (ty : Option Ty) (q g : ℚ), x.2 = C.fill (.term v ty) ∧ v.data.Means q ∧ v'.data = .float (q + g) ∧
          ind' = { x.1 with tree := (C.fill (.term v' ty)).flatten }) (inds.zip ps) out) := by
  obtain ⟨out, tape', h1, h2, h3⟩ := C09_erc_mutation inds ps h (fun p hp vt hv hn => by
    obtain ⟨q, hq⟩ := (hb p hp vt hv).isNumber_iff.1 hn
    rw [(Data.num?_iff _ _).2 hq]
    simp) mu sigma tape
  refine ⟨out, tape', h1, ?_, ?_⟩
  · rintro ⟨p, hp, hn⟩
    refine h2 ⟨p, hp, fun vt hv => ?_⟩
    rw [Bool.eq_false_iff]
    intro ht
    obtain ⟨q, hq⟩ := (hb p hp vt hv).isNumber_iff.1 ht
    exact hn vt hv q hq
  · intro hall
    refine (h3 fun p hp => ?_).imp ?_
    · obtain ⟨vt, hv, hq⟩ := hall p hp
      exact ⟨vt, hv, (hb p hp vt hv).isNumber_iff.2 hq⟩
    · rintro x ind' ⟨C, v, v', ty, q, g, e1, -, e3, e4, e5⟩
      exact ⟨C, v, v', ty, q, g, e1, (Data.num?_iff _ _).1 e3, e4, e5⟩

/-- Numbers are equal if their values are, as keys of the terminal set, whatever their types: `1 == 1.0 == True`. -/
theorem C09_equal_numbers {a b : Data} {x y : ℚ} (ha : a.Means x) (hb : b.Means y) : a.pyEq b = true ↔ x = y := by
  unfold Data.pyEq
  rw [(Data.num?_iff _ _).2 ha, (Data.num?_iff _ _).2 hb]
  simp

/-- The terminals of the sample program are built in, and one of them is a number. -/
example : (∀ vt ∈ Sample.prog.terms, vt.1.data.BuiltIn) ∧ ∃ vt ∈ Sample.prog.terms, ∃ q, vt.1.data.Means q := by
  refine ⟨?_, ?_⟩
  · simp [Sample.prog, Prog.terms, Prog.termsAll, Sample.x, Sample.two, Data.BuiltIn]
  · exact ⟨(Sample.two, none), by simp [Sample.prog, Prog.terms, Prog.termsAll], _, .int 2⟩

end Verif.GP
