import Verif.Py.Wp

/-! # Correctness including exceptions: what holds when a computation returns, and when it raises -/

namespace Verif.PyM
variable {σ τ α β : Type}

/-- From state `s`: if the computation returns, `Q` holds; if it raises, the state reached satisfies
`E`. -/
def tri (m : PyM σ α) (Q : α → σ → Prop) (E : σ → Prop) (s : σ) : Prop :=
  ∀ r s', m s = (r, s') → match r with
    | .ok a => Q a s'
    | .error _ => E s'

variable {m : PyM σ α} {f : α → PyM σ β} {Q R : α → σ → Prop} {E : σ → Prop} {s : σ}

theorem tri_bind {R : β → σ → Prop} (h : tri m (fun a s' => tri (f a) R E s') E s) :
    tri (m >>= f) R E s := by
  intro r s' e
  rcases hm : m s with ⟨_ | a, s₁⟩
  · have h1 := h _ _ hm
    have : (m >>= f) s = (.error _, s₁) := bind_error.2 (.inl hm)
    rw [this] at e
    simp only [Prod.mk.injEq] at e
    obtain ⟨rfl, rfl⟩ := e
    exact h1
  · refine h _ _ hm r s' ?_
    rw [← e]
    show _ = (match m s with
      | (.ok a, s') => f a s'
      | (.error e, s') => (.error e, s'))
    rw [hm]

theorem tri_pure {a : α} (h : Q a s) : tri (pure a) Q E s := by
  intro r s' e
  rw [pure_run] at e
  simp only [Prod.mk.injEq] at e
  obtain ⟨rfl, rfl⟩ := e
  exact h

theorem tri_raise {e : Err} (h : E s) : tri (raise e) Q E s := by
  intro r s' e
  simp only [raise, Prod.mk.injEq] at e
  obtain ⟨rfl, rfl⟩ := e
  exact h

theorem tri_get {Q : σ → σ → Prop} (h : Q s s) : tri get Q E s := by
  intro r s' e
  simp only [get, Prod.mk.injEq] at e
  obtain ⟨rfl, rfl⟩ := e
  exact h

theorem tri_modify {g : σ → σ} {Q : Unit → σ → Prop} (h : Q () (g s)) : tri (modify g) Q E s := by
  intro r s' e
  simp only [modify, Prod.mk.injEq] at e
  obtain ⟨rfl, rfl⟩ := e
  exact h

theorem tri_ite {c : Prop} [Decidable c] {m₁ m₂ : PyM σ α} (h1 : c → tri m₁ Q E s)
    (h2 : ¬ c → tri m₂ Q E s) : tri (if c then m₁ else m₂) Q E s := by
  split
  · exact h1 ‹_›
  · exact h2 ‹_›

theorem tri.mono (h : tri m Q E s) (hi : ∀ a s', Q a s' → R a s') : tri m R E s := by
  intro r s' e
  have := h r s' e
  cases r with
  | ok a => exact hi a s' this
  | error e => exact this

theorem tri.wlp (h : tri m Q E s) : wlp m Q s := fun a s' e => h (.ok a) s' e

/-- A computation on a component: the rest of the state is unchanged whatever happens. -/
theorem tri_zoom {g : σ → τ} {p : τ → σ → σ} {m : PyM τ α} (h : PyM.wlp m (fun a t => Q a (p t s)) (g s))
    (hE : ∀ t, E (p t s)) : tri (zoom g p m) Q E s := by
  intro r s' e
  rcases hm : m (g s) with ⟨r', t⟩
  simp only [zoom, hm, Prod.mk.injEq] at e
  obtain ⟨rfl, rfl⟩ := e
  cases r' with
  | ok a => exact h a t hm
  | error e => exact hE t

end Verif.PyM
