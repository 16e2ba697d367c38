import Verif.Model.Notify
import Verif.Py.Wp
import Verif.Props.Publisher

/-! # C103: subscribers that subscribe and unsubscribe while they are notified -/

namespace Verif.Pub
open PyM
variable {C W : Type} [DecidableEq C] {run : C → PyM (Live C W) Unit}
  {odd : List (Nat × Stored C) → List (Nat × Stored C) → Nat → PyM (Live C W) Unit} {event : String}
  {d : List (Nat × Stored C)} {s : Live C W}

/-- Calling what is stored leaves the subscribers of `event` as they are, whatever else it does. -/
def Leaves (run : C → PyM (Live C W) Unit) (event : String) (x : Stored C) : Prop :=
  ∀ s : Live C W, lookup (invoke run x s).2.1.events event = lookup s.1.events event

theorem iterate_step (h : lookup s.1.events event = some d) (pre : List (Nat × Stored C)) (p : Nat × Stored C)
    (post : List (Nat × Stored C)) (hd : d = pre ++ p :: post) :
    iterate run odd event d (post.length + 1) s = (do
      invoke run p.2
      iterate run odd event d post.length) s := by
  have hi : d.length - (post.length + 1) = pre.length := by rw [hd]; simp
  conv_lhs => rw [iterate]
  simp only [bind, PyM.bind, PyM.get, h, Option.getD_some, ne_eq, not_true, if_false, if_true, hi]
  have : d[pre.length]? = some p := by rw [hd]; simp
  rw [this]
  rfl

theorem forL_leaves (l : List (Nat × Stored C)) (s : Live C W) (hl : ∀ p ∈ l, Leaves run event p.2) :
    lookup (forL (fun p : Nat × Stored C => invoke run p.2) l s).2.1.events event = lookup s.1.events event := by
  induction l generalizing s with
  | nil => rfl
  | cons p l ih =>
    have hp := hl p (by simp) s
    simp only [forL, bind, PyM.bind]
    rcases hr : invoke run p.2 s with ⟨r, s₁⟩
    rw [hr] at hp
    cases r with
    | error e => exact hp
    | ok u =>
      simp only
      rw [ih s₁ fun q hq => hl q (by simp [hq])]
      exact hp

/-- The part of the loop over subscribers that leave the subscriptions alone. -/
theorem iterate_calm (h : lookup s.1.events event = some d) (pre mid post : List (Nat × Stored C))
    (hd : d = pre ++ mid ++ post) (hmid : ∀ p ∈ mid, Leaves run event p.2) :
    iterate run odd event d (mid.length + post.length) s = (do
      forL (fun p : Nat × Stored C => invoke run p.2) mid
      iterate run odd event d post.length) s := by
  induction mid generalizing pre s with
  | nil => simp [forL, bind, PyM.bind, pure, PyM.pure]
  | cons p mid ih =>
    have hl : (p :: mid).length + post.length = (mid ++ post).length + 1 := by simp; omega
    rw [hl, iterate_step h pre p (mid ++ post) (by rw [hd]; simp)]
    have hp := hmid p (by simp) s
    simp only [forL, bind, PyM.bind]
    rcases hr : invoke run p.2 s with ⟨r, s₁⟩
    cases r with
    | error e => rfl
    | ok u =>
      simp only
      rw [hr] at hp
      have := ih (s := s₁) (by rw [← h]; exact hp) (pre ++ [p]) (by rw [hd]; simp) fun q hq => hmid q (by simp [hq])
      rw [List.length_append, this]
      rfl

/-- **C103 (partial): subscribers that leave the event alone.** If no subscriber of the event changes the subscriptions
to it — whatever else it does: subscribe to other events, change the world, raise — publishing calls each of them
once, in the order of registration; an exception stops it there. -/
theorem C103_calm_partial (h : lookup s.1.events event = some d) (hd : ∀ p ∈ d, Leaves run event p.2) :
    publishLive run odd event s = forL (fun p : Nat × Stored C => invoke run p.2) d s := by
  have h1 : publishLive run odd event s = iterate run odd event d d.length s := by
    simp only [publishLive, bind, PyM.bind, PyM.get, h]
  have h2 := iterate_calm (odd := odd) h [] d [] (by simp) hd
  rw [h1]
  rw [show d.length = d.length + ([] : List (Nat × Stored C)).length from rfl, h2]
  have := forL_leaves d s hd
  rw [h] at this
  simp only [bind, PyM.bind]
  rcases hr : forL (fun p : Nat × Stored C => invoke run p.2) d s with ⟨r, s₁⟩
  rw [hr] at this
  cases r with
  | error e => rfl
  | ok u =>
    simp only
    simp only [List.length_nil, iterate, bind, PyM.bind, PyM.get, this, Option.getD_some, ne_eq, not_true, if_false, if_true]
    rfl

/-- **C103 (partial): a subscriber that changes the number of subscribers.** The subscribers before `c` leave the
subscriptions alone and return; `c` returns too, but afterwards the event has more or fewer subscribers: then publishing
raises `RuntimeError` right after `c`, and none of the later subscribers is called — even if `c` was the last. -/
theorem C103_disturbed_partial {pre post : List (Nat × Stored C)} {p : Nat × Stored C}
    (h : lookup s.1.events event = some (pre ++ p :: post)) (hpre : ∀ q ∈ pre, Leaves run event q.2) {s₁ s₂ : Live C W}
    (h1 : forL (fun q : Nat × Stored C => invoke run q.2) pre s = (.ok (), s₁)) (h2 : invoke run p.2 s₁ = (.ok (), s₂))
    {d' : List (Nat × Stored C)} (h3 : lookup s₂.1.events event = some d')
    (h4 : d'.length ≠ (pre ++ p :: post).length) :
    publishLive run odd event s = (.error .runtimeError, s₂) := by
  have e1 : publishLive run odd event s = iterate run odd event (pre ++ p :: post) (pre ++ p :: post).length s := by
    simp only [publishLive, bind, PyM.bind, PyM.get, h]
  have e2 := iterate_calm (odd := odd) h [] pre (p :: post) (by simp) hpre
  have hl : lookup s₁.1.events event = some (pre ++ p :: post) := by
    have := forL_leaves pre s hpre
    rw [h1] at this
    rw [← h]
    exact this
  have e3 := iterate_step (run := run) (odd := odd) hl pre p post rfl
  rw [e1, List.length_append, e2]
  simp only [bind, PyM.bind, h1]
  rw [show (p :: post).length = post.length + 1 from rfl, e3]
  simp only [bind, PyM.bind, h2]
  cases post with
  | nil => simp only [List.length_nil, iterate, bind, PyM.bind, PyM.get, h3, Option.getD_some, if_pos h4, raise]
  | cons q post =>
    simp only [List.length_cons, iterate, bind, PyM.bind, PyM.get, h3, Option.getD_some]
    rw [if_pos (by simpa using h4)]
    rfl

/-- **C103 (partial): passive subscribers.** With subscribers that only take note of the notification, publishing is what
`Verif.Pub.publish` says, for events that are known and for events that are not. -/
theorem C103_passive_partial (r : Registry C) (l : List C)
    (odd : List (Nat × Stored C) → List (Nat × Stored C) → Nat → PyM (Live C (List C)) Unit) :
    publishLive (fun c => PyM.modify fun s : Live C (List C) => (s.1, s.2 ++ [c])) odd event (r, l) =
      ((publish r event).2, (r, l ++ (publish r event).1)) := by
  cases hd : lookup r.events event with
  | none => simp [publishLive, publish, hd, bind, PyM.bind, PyM.get, raise]
  | some d =>
    rw [C103_calm_partial hd]
    · unfold publish
      rw [hd]
      dsimp only
      clear hd
      induction d generalizing l with
      | nil => simp [forL, callAll, pure, PyM.pure]
      | cons p d ih =>
        obtain ⟨i, x⟩ := p
        cases x with
        | aSet => simp [forL, callAll, invoke, raise, bind, PyM.bind]
        | callback c =>
          have h := ih (l ++ [c])
          simp only [forL, bind, PyM.bind]
          rw [show invoke (fun c => PyM.modify fun s : Live C (List C) => (s.1, s.2 ++ [c])) (.callback c) (r, l) = (.ok (), (r, l ++ [c])) from rfl]
          dsimp only
          rw [h]
          simp [callAll]
    · rintro ⟨i, x⟩ _ s
      cases x <;> rfl

example : publishLive (fun c => PyM.modify fun s : Live Nat (List Nat) => (s.1, s.2 ++ [c])) (fun _ _ _ => pure ()) "other" (new ["e"], []) =
    (.error .keyError, (new ["e"], [])) := by
  rw [C103_passive_partial]
  rfl

/-! ### One-shot subscribers -/

section OneShot
omit [DecidableEq C]
variable {rest : List (Nat × Stored Nat) → List (Nat × Stored Nat) → Nat → PyM (Live Nat (List Nat)) Unit}

/-- The subscriber with id `i` notes that it was called, and if it is one of the one-shot subscribers `S`, unregisters
itself from the event. -/
def oneShot (event : String) (S : List Nat) (i : Nat) : PyM (Live Nat (List Nat)) Unit := do
  PyM.modify fun s => (s.1, s.2 ++ [i])
  if i ∈ S then onRegistry (unregister event i) else pure ()

/-- A publisher with `n` subscribers of the event "e": subscriber `i` was given the id `i`. -/
def withSubscribers (n : Nat) : Registry Nat := ((performAll ((List.range n).map fun i => .register "e" (some i)) (new ["e"])).2)

/-- C103, as the property says it: subscribers may unregister themselves when they are notified; the others are still
called. -/
def C103_statement : Prop :=
  ∀ (odd : List (Nat × Stored Nat) → List (Nat × Stored Nat) → Nat → PyM (Live Nat (List Nat)) Unit) (n : Nat) (S : List Nat),
    ∃ reg, publishLive (oneShot "e" S) odd "e" (withSubscribers n, []) = (.ok (), (reg, List.range n))

theorem performAll_append {α : Type} (l₁ l₂ : List (Call α)) (r : Registry α) :
    (performAll (l₁ ++ l₂) r).2 = (performAll l₂ (performAll l₁ r).2).2 := by
  induction l₁ generalizing r with
  | nil => rfl
  | cons c cs ih =>
    simp only [List.cons_append, performAll]
    exact ih _

theorem withSubscribers_eq (n : Nat) : lookup (withSubscribers n).events "e" =
    some ((List.range n).map fun i => (i, Stored.callback i)) ∧ (withSubscribers n).customersId = n := by
  induction n with
  | zero => exact ⟨rfl, rfl⟩
  | succ n ih =>
    have : withSubscribers (n + 1) = (perform (.register "e" (some n)) (withSubscribers n)).2 := by
      unfold withSubscribers
      rw [List.range_succ, List.map_append, performAll_append]
      rfl
    rw [this]
    simp only [perform, register, bind, PyM.bind, PyM.get, ih.1, ih.2, PyM.set, pure, PyM.pure]
    refine ⟨?_, trivial⟩
    rw [lookup_assign, if_pos rfl, List.range_succ, List.map_append, assign_fresh]
    · rfl
    · intro p hp
      obtain ⟨i, hi, rfl⟩ := List.mem_map.1 hp
      exact Nat.ne_of_lt (List.mem_range.1 hi)

theorem oneShot_leaves {S : List Nat} {i : Nat} (h : i ∉ S) (event : String) : Leaves (oneShot event S) event (.callback i) := by
  intro s
  simp [invoke, oneShot, h, bind, PyM.bind, PyM.modify, pure, PyM.pure]

/-- Calling subscribers none of which is one-shot only makes the notes. -/
theorem oneShot_calm {S : List Nat} (event : String) (l : List Nat) (h : ∀ i ∈ l, i ∉ S) (s : Live Nat (List Nat)) :
    forL (fun p : Nat × Stored Nat => invoke (oneShot event S) p.2) (l.map fun i => (i, Stored.callback i)) s =
      (.ok (), (s.1, s.2 ++ l)) := by
  induction l generalizing s with
  | nil => simp [forL, pure, PyM.pure]
  | cons i l ih =>
    have hi := h i (by simp)
    simp only [List.map_cons, forL, bind, PyM.bind]
    have : invoke (oneShot event S) (.callback i) s = (.ok (), (s.1, s.2 ++ [i])) := by
      simp [invoke, oneShot, hi, bind, PyM.bind, PyM.modify, pure, PyM.pure]
    rw [this]
    simp only
    rw [ih fun j hj => h j (by simp [hj])]
    simp

/-- **C103 (partial): one-shot subscribers.** Subscribers are called up to and including the first one-shot subscriber
`k`; it is unregistered, and then publishing raises `RuntimeError`. -/
theorem C103_one_shot_partial (n k : Nat) (S : List Nat) (hk : k < n) (hkS : k ∈ S) (hfirst : ∀ i < k, i ∉ S) :
    ∃ reg, publishLive (oneShot "e" S) rest "e" (withSubscribers n, []) = (.error .runtimeError, (reg, List.range (k + 1))) ∧
      lookup reg.events "e" = some (((List.range n).filter (· ≠ k)).map fun i => (i, Stored.callback i)) := by
  obtain ⟨h1, h2⟩ := withSubscribers_eq n
  have hsplit : List.range n = List.range k ++ k :: List.range' (k + 1) (n - (k + 1)) := by
    have h3 : List.range n = List.range' 0 n := List.range_eq_range'
    have h4 : n = k + ((n - (k + 1)) + 1) := by omega
    rw [h3]
    conv_lhs => rw [h4]
    rw [← List.range'_append_1, List.range'_succ, List.range_eq_range']
    simp
  have hsubs : lookup (withSubscribers n).events "e" = some ((List.range k).map (fun i => (i, Stored.callback i)) ++
      (k, Stored.callback k) :: (List.range' (k + 1) (n - (k + 1))).map fun i => (i, Stored.callback i)) := by
    rw [h1, hsplit]
    simp
  have hun : invoke (oneShot "e" S) (.callback k) (withSubscribers n, [] ++ List.range k) = (.ok (),
      (⟨assign (withSubscribers n).events "e" ((((List.range n).map fun i => (i, Stored.callback i))).filter fun p => p.1 ≠ k),
        (withSubscribers n).customersId⟩, List.range (k + 1))) := by
    have hl : lookup ((List.range n).map fun i => (i, Stored.callback i)) k = some (Stored.callback k) := by
      rw [hsplit]
      unfold lookup
      rw [List.map_append, List.find?_append]
      have : (List.find? (fun p : Nat × Stored Nat => decide (p.1 = k)) ((List.range k).map fun i => (i, Stored.callback i))) = none := by
        rw [List.find?_eq_none]
        intro p hp
        obtain ⟨i, hi, rfl⟩ := List.mem_map.1 hp
        simp only [decide_eq_true_eq]
        exact Nat.ne_of_lt (List.mem_range.1 hi)
      rw [this]
      simp
    simp only [invoke, oneShot, bind, PyM.bind, PyM.modify, hkS, if_true, onRegistry, unregister, PyM.get, h1, hl, PyM.set,
      List.nil_append, List.range_succ]
  refine ⟨_, C103_disturbed_partial hsubs (fun q hq => ?_) (s₁ := (withSubscribers n, [] ++ List.range k))
    (oneShot_calm "e" (List.range k) (fun i hi => hfirst i (List.mem_range.1 hi)) _) hun
    (d' := ((List.range n).map fun i => (i, Stored.callback i)).filter fun p => p.1 ≠ k) (by rw [lookup_assign, if_pos rfl]) ?_, ?_⟩
  · obtain ⟨i, hi, rfl⟩ := List.mem_map.1 hq
    exact oneShot_leaves (hfirst i (List.mem_range.1 hi)) "e"
  · intro hlen
    have e1 : (((List.range n).map fun i => (i, Stored.callback i)).filter fun p => decide (p.1 ≠ k)).length < n := by
      refine Nat.lt_of_lt_of_eq (List.length_filter_lt_length_iff_exists.2 ⟨(k, Stored.callback k), ?_, by simp⟩) (by simp)
      exact List.mem_map.2 ⟨k, List.mem_range.2 hk, rfl⟩
    simp only [List.length_append, List.length_cons, List.length_map, List.length_range, List.length_range'] at hlen
    omega
  · simp only
    rw [lookup_assign, if_pos rfl, List.filter_map]
    rfl

/-- C103 is false: a single one-shot subscriber makes publishing raise. -/
theorem C103_refuted : ¬ C103_statement := fun h => by
  obtain ⟨reg, h⟩ := h (fun _ _ _ => pure ()) 1 [0]
  obtain ⟨reg', h', -⟩ := C103_one_shot_partial (rest := fun _ _ _ => pure ()) 1 0 [0] (by decide) (by simp) (by simp)
  rw [h'] at h
  simp at h

/-- **C103 (partial): without one-shot subscribers** all are called. -/
theorem C103_all_partial (n : Nat) (S : List Nat) (hS : ∀ i < n, i ∉ S) :
    publishLive (oneShot "e" S) rest "e" (withSubscribers n, []) = (.ok (), (withSubscribers n, List.range n)) := by
  rw [C103_calm_partial (s := (withSubscribers n, [])) (withSubscribers_eq n).1 fun p hp => ?_]
  · rw [oneShot_calm "e" (List.range n) fun i hi => hS i (List.mem_range.1 hi)]
    rfl
  · obtain ⟨i, hi, rfl⟩ := List.mem_map.1 hp
    exact oneShot_leaves (hS i (List.mem_range.1 hi)) "e"

/-- Five subscribers, the third of which is one-shot; without it. -/
example := C103_one_shot_partial (rest := fun _ _ _ => pure ()) 5 2 [2, 4] (by decide) (by simp) (by decide)
example := C103_all_partial (rest := fun _ _ _ => pure ()) 5 [7] (by decide)

end OneShot

end Verif.Pub
