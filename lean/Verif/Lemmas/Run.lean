import Verif.Spec.Run
import Verif.Py.Tri

/-! # Lemmas about evolutionary runs: the invariant behind C35 -/

namespace Verif.Evo
open PyM
variable {G κ : Type} {size : G → Nat} {d : Bool}

/-! ## Population evaluation, with an arbitrary evaluator -/

theorem runEval_wlp (c : SubCfg G) (r : Nat) (s : World G) :
    wlp (runEval c r) (fun _ s' => s'.heap = s.heap ∧ s'.nextId = s.nextId) s := by
  unfold runEval
  rw [wlp_bind, wlp_deref]
  intro i _
  rw [wlp_rand]
  exact fun _ _ _ => ⟨rfl, rfl⟩

theorem executorMap_wlp {σ α : Type} {s : σ} (order refs : List Nat) {task : Nat → PyM σ α} {I : σ → Prop}
    (hI : I s) (ht : ∀ r s, I s → wlp (task r) (fun _ s' => I s') s) :
    wlp (executorMap order task refs) (fun vs s' => vs.length = refs.length ∧ I s') s := by
  unfold executorMap
  rw [wlp_bind]
  have h1 : wlp (mapL (runTask task refs) order) (fun _ s' => I s') s := by
    refine wlp_mapL (I := fun _ _ s' => I s') hI ?_
    intro pre i post ys s₁ _ hI₁
    unfold runTask
    cases refs[i]? with
    | none => simp
    | some r =>
      dsimp only
      rw [wlp_bind]
      exact (ht r s₁ hI₁).mono fun v s₂ h => by rw [wlp_pure]; exact h
  refine h1.mono fun rs s₁ hI₁ => ?_
  have h2 : wlp (mapL (lookupResult rs) (List.range refs.length)) (fun vs s' =>
      vs.length = (List.range refs.length).length ∧ I s') s₁ := by
    refine wlp_mapL (I := fun is vs s' => vs.length = is.length ∧ I s') ⟨rfl, hI₁⟩ ?_
    rintro pre i post ys s₂ _ ⟨hl, hI₂⟩
    unfold lookupResult
    split
    · rw [wlp_pure]; exact ⟨by simp [hl], hI₂⟩
    · simp
  exact h2.mono fun vs s₂ h => ⟨by simpa using h.1, h.2⟩

/-- Storing a score for every individual. -/
theorem storeScores_wlp {inds : List Nat} {scores : List ℚ} (hlen : scores.length = inds.length) {s : World G}
    (hv : Valid s inds) (hd : ∀ r ∈ inds, ∀ i, s.heap[r]? = some i → i.fit.hib = d) :
    wlp (forL (fun (p : Nat × ℚ) => setFitness p.1 (.num p.2)) (inds.zip scores)) (fun _ s' =>
      Ext (· ∈ inds) s s' ∧ (∀ r, genomeAt s' r = genomeAt s r) ∧ s'.heap.length = s.heap.length ∧
      Evaluated size d s' inds) s := by
  refine (wlp_forL (I := fun (ps : List (Nat × ℚ)) (s' : World G) => Ext (· ∈ inds) s s' ∧
    (∀ r, genomeAt s' r = genomeAt s r) ∧ s'.heap.length = s.heap.length ∧
    ∀ p ∈ ps, ∃ x, HasScore size d s' p.1 x) ⟨Ext.refl _ _, fun r => rfl, rfl, by simp⟩ ?_).mono ?_
  · rintro pre ⟨r, q⟩ post s₂ hz ⟨e, hg, hl, hs⟩
    have hr : r ∈ inds := by
      have : (r, q) ∈ inds.zip scores := by rw [hz]; simp
      exact (List.of_mem_zip this).1
    unfold setFitness
    rw [wlp_update]
    have e2 := Ext.update s₂ r (fun i => { i with fit := i.fit.setFitness (.num q) }) (fun _ => rfl)
    refine ⟨(e.trans e2).mono ?_, fun r' => ?_, by simpa using hl, ?_⟩
    · rintro i _ (h | rfl)
      · exact h
      · exact hr
    · rw [← hg]
      unfold genomeAt
      simp only [List.getElem?_modify]
      cases s₂.heap[r']? with
      | none => rfl
      | some i => by_cases h : r = r' <;> simp [h]
    · have hnew : ∃ x, HasScore size d
          { s₂ with heap := s₂.heap.modify r (fun i => { i with fit := i.fit.setFitness (.num q) }) } r x := by
        have hlt : r < s₂.heap.length := hl ▸ hv r hr
        refine ⟨_, { s₂.heap[r] with fit := s₂.heap[r].fit.setFitness (.num q) }, s₂.heap[r].fit.bloat, q,
          by simp [List.getElem?_eq_getElem hlt], ⟨rfl, rfl, ?_, rfl⟩, rfl⟩
        have ha := e.attrs r (hv r hr)
        have hlt0 := hv r hr
        rw [List.getElem?_eq_getElem hlt, List.getElem?_eq_getElem hlt0] at ha
        simp only [Option.map_some, Option.some.injEq] at ha
        exact (congrArg Attrs.hib ha).trans (hd r hr _ (List.getElem?_eq_getElem hlt0))
      intro p hp
      simp only [List.mem_append, List.mem_singleton] at hp
      rcases hp with hp | rfl
      · by_cases h : p.1 = r
        · rw [h]; exact hnew
        · obtain ⟨x, hx⟩ := hs p hp
          exact ⟨x, hx.ext e2 h⟩
      · exact hnew
  rintro _ s₂ ⟨e, hg, hl, hs⟩
  refine ⟨e, hg, hl, ?_⟩
  intro r hr
  obtain ⟨k, hk, rfl⟩ := List.getElem_of_mem hr
  have hk' : k < scores.length := by omega
  have hz : k < (inds.zip scores).length := by simp; omega
  have := hs (inds.zip scores)[k] (List.getElem_mem hz)
  simpa using this

theorem evaluateMap_wlp {c : SubCfg G} {order inds : List Nat} {s : World G} (hv : Valid s inds)
    (hd : ∀ r ∈ inds, ∀ i, s.heap[r]? = some i → i.fit.hib = d) :
    wlp (evaluateMap size c order inds) (fun b s' => Ext (· ∈ inds) s s' ∧
      (∀ r, genomeAt s' r = genomeAt s r) ∧ s'.heap.length = s.heap.length ∧
      Evaluated size d s' inds ∧ FirstBest (Beats size d s') inds b) s := by
  unfold evaluateMap
  rw [wlp_bind]
  refine (executorMap_wlp order inds (I := fun s' : World G => s'.heap = s.heap ∧ s'.nextId = s.nextId)
    ⟨rfl, rfl⟩ ?_).mono ?_
  · rintro r s₁ ⟨h1, h2⟩
    exact (runEval_wlp c r s₁).mono fun _ s' h => ⟨h.1.trans h1, h.2.trans h2⟩
  rintro scores s₁ ⟨hlen, hheap, hid⟩
  have he : Ext (· ∈ inds) s s₁ :=
    ⟨by rw [hheap], fun i _ _ => by rw [hheap], fun i _ => by rw [hheap],
      fun h => ⟨by rw [hheap]; exact h.1, by rw [hheap, hid]; exact h.2⟩, by rw [hid]⟩
  have hv1 : Valid s₁ inds := fun r hr => by rw [hheap]; exact hv r hr
  rw [wlp_bind]
  refine (storeScores_wlp (size := size) hlen hv1 (fun r hr i hi => hd r hr i (hheap ▸ hi))).mono ?_
  rintro _ s₂ ⟨e2, hg2, hl2, hev⟩
  have e : Ext (· ∈ inds) s s₂ := (he.trans e2).mono (by rintro i _ (h | h) <;> exact h)
  have hg : ∀ r, genomeAt s₂ r = genomeAt s r := fun r => by rw [hg2]; unfold genomeAt; rw [hheap]
  have hl : s₂.heap.length = s.heap.length := by rw [hl2, hheap]
  cases inds with
  | nil => simp
  | cons b rest =>
    dsimp only
    rw [bestLoop_eq]
    refine (winnerLoop_wp b rest hev).wlp.mono ?_
    rintro r s₃ ⟨rfl, hf⟩
    exact ⟨e, hg, hl, hev, hf⟩

/-! ## Scores depend on the essence only -/

theorem hasScore_iff {h : List (Ind G)} {r : Nat} {x : ℚ} : HasScore size d (ofHeap h) r x ↔
    ∃ id g f b q, essence h r = some (id, g, f) ∧ Holds f d b q ∧ x = score d b q (size g) := by
  unfold HasScore essence ofHeap
  constructor
  · rintro ⟨i, b, q, hi, hh, hx⟩
    exact ⟨i.id, i.genome, i.fit, b, q, by simp [hi], hh, hx⟩
  · rintro ⟨id, g, f, b, q, he, hh, hx⟩
    cases hr : h[r]? with
    | none => simp [hr] at he
    | some i =>
      simp only [hr, Option.map_some, Option.some.injEq, Prod.mk.injEq] at he
      obtain ⟨rfl, rfl, rfl⟩ := he
      exact ⟨i, b, q, rfl, hh, hx⟩

theorem hasScore_congr {h h' : List (Ind G)} {r : Nat} (he : essence h' r = essence h r) {x : ℚ} :
    HasScore size d (ofHeap h') r x ↔ HasScore size d (ofHeap h) r x := by
  rw [hasScore_iff, hasScore_iff, he]

theorem beats_congr {h h' : List (Ind G)} {a b : Nat} (ha : essence h' a = essence h a)
    (hb : essence h' b = essence h b) : Beats size d (ofHeap h') a b ↔ Beats size d (ofHeap h) a b := by
  unfold Beats
  simp only [hasScore_congr ha, hasScore_congr hb]

theorem beats_ofHeap {s : World G} {a b : Nat} : Beats size d (ofHeap s.heap) a b ↔ Beats size d s a b := by
  unfold Beats HasScore ofHeap; rfl

theorem hasScore_ofHeap {s : World G} {a : Nat} {x : ℚ} :
    HasScore size d (ofHeap s.heap) a x ↔ HasScore size d s a x := by
  unfold HasScore ofHeap; rfl

theorem essence_lt {h : List (Ind G)} {r : Nat} {x : Nat × G × Fit} (he : essence h r = some x) :
    r < h.length := by
  unfold essence at he
  by_contra hn
  rw [List.getElem?_eq_none (by omega)] at he
  simp at he

/-! ## `BestOf` over time -/

theorem BestOf.score {past : List (Event G)} {heap : List (Ind G)} {b : Nat} (h : BestOf size d past heap b)
    {e : Event G} (he : e ∈ past) (hev : e.IsEval) {r : Nat} (hr : e.Shows r) :
    ∃ x, HasScore size d (ofHeap heap) r x := by
  obtain ⟨⟨x, hx⟩, hes, -⟩ := h.2 e he hev r hr
  exact ⟨x, (hasScore_congr hes).2 hx⟩

theorem BestOf.lt {past : List (Event G)} {heap : List (Ind G)} {b : Nat} (h : BestOf size d past heap b)
    {e : Event G} (he : e ∈ past) (hev : e.IsEval) {r : Nat} (hr : e.Shows r) : r < heap.length := by
  obtain ⟨x, hx⟩ := h.score he hev hr
  obtain ⟨_, _, _, _, _, hes, -⟩ := hasScore_iff.1 hx
  exact essence_lt hes

/-- Objects that were there keep their essence. -/
theorem BestOf.later {past : List (Event G)} {heap heap' : List (Ind G)} {b : Nat}
    (h : BestOf size d past heap b) (hs : ∀ r, r < heap.length → essence heap' r = essence heap r) :
    BestOf size d past heap' b := by
  refine ⟨h.1, fun e he hev r hr => ?_⟩
  obtain ⟨h1, h2, h3⟩ := h.2 e he hev r hr
  obtain ⟨e', he', hev', hb⟩ := h.1
  have hlr := hs r (h.lt he hev hr)
  have hlb := hs b (h.lt he' hev' hb)
  exact ⟨h1, hlr.trans h2, by rwa [beats_congr hlr hlb]⟩

/-- Events that are not ends of evaluations do not matter. -/
theorem BestOf.snoc {past : List (Event G)} {heap : List (Ind G)} {b : Nat} (h : BestOf size d past heap b)
    {e : Event G} (he : ¬ e.IsEval) : BestOf size d (past ++ [e]) heap b := by
  obtain ⟨⟨e', he', hev', hb⟩, h2⟩ := h
  refine ⟨⟨e', by simp [he'], hev', hb⟩, fun e₁ h₁ hev₁ r hr => ?_⟩
  simp only [List.mem_append, List.mem_singleton] at h₁
  rcases h₁ with h₁ | rfl
  · exact h2 e₁ h₁ hev₁ r hr
  · exact absurd hev₁ he

/-- The first evaluation. -/
theorem BestOf.first {heap : List (Ind G)} {e₀ e : Event G} {is : List Nat} {b : Nat} (h0 : ¬ e₀.IsEval)
    (hev : e.IsEval) (hh : e.snap.heap = heap) (hi : e.snap.inds = [some is])
    (hs : Evaluated size d (ofHeap heap) is) (hb : FirstBest (Beats size d (ofHeap heap)) is b) :
    BestOf size d [e₀, e] heap b := by
  refine ⟨⟨e, by simp, hev, is, by simp [hi], hb.mem⟩, ?_⟩
  intro e₁ h₁ hev₁ r hr
  simp only [List.mem_cons, List.not_mem_nil, or_false] at h₁
  rcases h₁ with rfl | rfl
  · exact absurd hev₁ h0
  · obtain ⟨is', hi', hr⟩ := hr
    simp only [hi, List.mem_singleton, Option.some.injEq] at hi'
    subst hi'
    exact ⟨hh ▸ hs r hr, by rw [hh], hb.not_beaten r hr⟩

/-- A later evaluation, of individuals whose essence nobody knew before. -/
theorem BestOf.next {past : List (Event G)} {heap : List (Ind G)} {b b' : Nat} {e : Event G} {is : List Nat}
    (h : BestOf size d past heap b) (hev : e.IsEval) (hh : e.snap.heap = heap) (hi : e.snap.inds = [some is])
    (hs : Evaluated size d (ofHeap heap) is) (hb : FirstBest (Beats size d (ofHeap heap)) is b') :
    (Beats size d (ofHeap heap) b' b → BestOf size d (past ++ [e]) heap b') ∧
      (¬ Beats size d (ofHeap heap) b' b → BestOf size d (past ++ [e]) heap b) := by
  obtain ⟨eb, heb, hevb, hsb⟩ := h.1
  obtain ⟨xb, hxb⟩ := h.score heb hevb hsb
  have hnew : ∀ r, e.Shows r → r ∈ is := by
    rintro r ⟨is', hi', hr⟩
    simp only [hi, List.mem_singleton, Option.some.injEq] at hi'
    exact hi' ▸ hr
  have hshow : e.Shows b' := ⟨is, by simp [hi], hb.mem⟩
  obtain ⟨xb', hxb'⟩ := hs b' hb.mem
  constructor
  · intro hbeat
    refine ⟨⟨e, by simp, hev, hshow⟩, fun e₁ h₁ hev₁ r hr => ?_⟩
    simp only [List.mem_append, List.mem_singleton] at h₁
    rcases h₁ with h₁ | rfl
    · obtain ⟨h1, h2, h3⟩ := h.2 e₁ h₁ hev₁ r hr
      exact ⟨h1, h2, fun hc => h3 (beats_trans hc hbeat)⟩
    · exact ⟨hh ▸ hs r (hnew r hr), by rw [hh], hb.not_beaten r (hnew r hr)⟩
  · intro hbeat
    refine ⟨⟨eb, by simp [heb], hevb, hsb⟩, fun e₁ h₁ hev₁ r hr => ?_⟩
    simp only [List.mem_append, List.mem_singleton] at h₁
    rcases h₁ with h₁ | rfl
    · exact h.2 e₁ h₁ hev₁ r hr
    · refine ⟨hh ▸ hs r (hnew r hr), by rw [hh], fun hc => ?_⟩
      exact hb.not_beaten r (hnew r hr) (not_beats_trans hxb hbeat ⟨xb', hxb'⟩ hc)

theorem BestAlways.snoc {log : List (Event G)} (h : BestAlways size d log) {e : Event G}
    (he : e.publisher = "algorithm" → ∃ b, e.snap.bestOfRun = some b ∧ BestOf size d log e.snap.heap b) :
    BestAlways size d (log ++ [e]) := by
  intro past e' future hlog hp
  rcases List.eq_nil_or_concat future with rfl | ⟨fut, x, rfl⟩
  · have := List.append_inj' hlog rfl
    obtain ⟨rfl, h2⟩ := this
    simp only [List.cons.injEq, and_true] at h2
    subst h2
    exact he hp
  · rw [List.concat_eq_append] at hlog
    have h2 : log ++ [e] = (past ++ e' :: fut) ++ [x] := by rw [hlog]; simp
    obtain ⟨h3, -⟩ := List.append_inj' h2 rfl
    exact h past e' fut h3 hp

/-! ## The invariant of a run -/

theorem tri_world {α : Type} {m : WM G α} {Q : α → Run G κ → Prop} {E : Run G κ → Prop} {s : Run G κ}
    (h : wlp m (fun a w => Q a { s with w := w }) s.w) (hE : ∀ w, E { s with w := w }) :
    tri (world m) Q E s := tri_zoom h hE

/-- What holds between the steps of a run, once it has been initialised. -/
structure Alive (size : G → Nat) (m : Mode) (s : Run G κ) : Prop where
  log : BestAlways size m.hib s.log
  best : ∃ b, s.bestOfRun = some b ∧ BestOf size m.hib s.log s.w.heap b
  pop : ∃ is, s.inds = [some is] ∧ is.Nodup ∧ ∀ r ∈ is, modeAt s.w r = some m

theorem modeAt_lt {s : World G} {r : Nat} {m : Mode} (h : modeAt s r = some m) : r < s.heap.length := by
  unfold modeAt at h
  by_contra hn
  rw [List.getElem?_eq_none (by omega)] at h
  simp at h

theorem modeAt_hib {s : World G} {r : Nat} {m : Mode} (h : modeAt s r = some m) {i : Ind G}
    (hi : s.heap[r]? = some i) : i.fit.hib = m.hib := by
  unfold modeAt at h
  rw [hi] at h
  simp only [Option.map_some, Option.some.injEq] at h
  exact congrArg Mode.hib h

theorem essence_of_heap {h h' : List (Ind G)} {r : Nat} (e : h'[r]? = h[r]?) : essence h' r = essence h r := by
  unfold essence; rw [e]

/-- Changing attributes outside genome and fitness. -/
theorem essence_modify {h : List (Ind G)} {a r : Nat} {f : Ind G → Ind G}
    (hf : ∀ i, (f i).id = i.id ∧ (f i).genome = i.genome ∧ (f i).fit = i.fit) :
    essence (h.modify a f) r = essence h r := by
  unfold essence
  simp only [List.getElem?_modify]
  cases h[r]? with
  | none => rfl
  | some i => by_cases ha : a = r <;> simp [ha, hf]

theorem alive_world {m : Mode} {s : Run G κ} (h : Alive size m s) {w : World G}
    (hs : ∀ r, r < s.w.heap.length → essence w.heap r = essence s.w.heap r)
    (hm : ∀ r, r < s.w.heap.length → modeAt w r = modeAt s.w r) : Alive size m { s with w := w } := by
  obtain ⟨h1, ⟨b, hb, hbo⟩, is, hi, hn, hmode⟩ := h
  exact ⟨h1, ⟨b, hb, hbo.later hs⟩, is, hi, hn, fun r hr => by
    have := hmode r hr
    rw [hm r (modeAt_lt this)]; exact this⟩

/-- The state after an event was published. -/
def Run.push (s : Run G κ) (p n : String) : Run G κ := { s with log := s.log ++ [⟨p, n, s.snapshot⟩] }

theorem tri_publish {s : Run G κ} {p n : String} {Q : Unit → Run G κ → Prop} {E : Run G κ → Prop}
    (h : Q () (s.push p n)) : tri (publish p n) Q E s := tri_modify h

/-- Publishing an event keeps the invariant, unless it is the end of an evaluation. -/
theorem Alive.push {m : Mode} {s : Run G κ} (h : Alive size m s) {p n : String}
    (hn : ¬ (p = "population_evaluator" ∧ n = "after_operator")) : Alive size m (s.push p n) := by
  obtain ⟨h1, ⟨b, hb, hbo⟩, hpop⟩ := h
  exact ⟨h1.snoc fun _ => ⟨b, hb, hbo⟩, ⟨b, hb, hbo.snoc hn⟩, hpop⟩

/-- The state after an exception: what was recorded is right. -/
abbrev LogOK (size : G → Nat) (m : Mode) (s : Run G κ) : Prop := BestAlways size m.hib s.log

/-- After breeding, the population consists of individuals that no evaluation has seen. -/
structure Bred (size : G → Nat) (m : Mode) (s : Run G κ) : Prop where
  alive : Alive size m s
  unseen : ∀ is, s.inds = [some is] → ∀ e ∈ s.log, e.IsEval → ∀ r ∈ is, ¬ e.Shows r

theorem breedSub_wlp {sub : SubCfg G} (hs : ∃ sel rest, sub.sels = sel :: rest ∧ sel.Good ∧ sel.Fills)
    (ho : ∀ o ∈ sub.ops, o.Good) {m : Mode} {w : World G} {is : List Nat}
    (hm : ∀ r ∈ is, modeAt w r = some m) :
    wlp (breedSub size sub is) (fun res w' => Brood w is.length m w' res) w := by
  obtain ⟨sel, rest, h1, h2, h3⟩ := hs
  exact breedSub_brood h1 h2 h3 ho (fun r hr => modeAt_lt (hm r hr)) hm

theorem Bred.push {m : Mode} {s : Run G κ} (h : Bred size m s) {p n : String}
    (hn : ¬ (p = "population_evaluator" ∧ n = "after_operator")) : Bred size m (s.push p n) := by
  refine ⟨h.alive.push hn, fun is hi e he hev r hr => ?_⟩
  simp only [Run.push, List.mem_append, List.mem_singleton] at he
  rcases he with he | rfl
  · exact h.unseen is hi e he hev r hr
  · exact absurd hev hn

theorem breed_alive {c : Cfg G κ} {sub : SubCfg G} {m : Mode} (hc : c.Ordinary sub m) {s : Run G κ}
    (h : Alive c.size m s) : tri (breed c) (fun _ s' => Bred c.size m s') (LogOK c.size m) s := by
  unfold breed act
  refine tri_bind (tri_publish ?_)
  have h1 := h.push (p := "breeder") (n := "before_operator") (by simp)
  generalize s.push "breeder" "before_operator" = s₁ at h1
  refine tri_bind ?_
  unfold breedBody
  refine tri_bind (tri_get ?_)
  obtain ⟨is, hi, hn, hm⟩ := h1.pop
  refine tri_bind (tri_world (E := LogOK c.size m) ?_ fun w => h1.log)
  rw [hc.subs, hi]
  show wlp (breedAll c.size [(sub, some is)]) _ _
  unfold breedAll
  rw [wlp_bind]
  refine (breedSub_wlp hc.sels hc.ops hm).mono fun res w hb => ?_
  unfold breedAll
  rw [wlp_bind, wlp_pure, wlp_pure]
  refine tri_modify ?_
  refine tri_bind (tri_publish ?_)
  refine tri_pure (Bred.push (s := { s₁ with w := w, inds := [some res] }) ⟨?_, ?_⟩ (by simp))
  · have := alive_world h1 (w := w) (fun r hr => essence_of_heap (hb.ext.same r hr fun h => h))
      (fun r hr => by unfold modeAt; rw [hb.ext.same r hr fun h => h])
    exact ⟨this.log, this.best, res, rfl, hb.nodup, hb.mode⟩
  · intro is' hi' e he hev r hr hsh
    obtain ⟨b, -, hbo⟩ := h1.best
    simp only [List.cons.injEq, Option.some.injEq, and_true] at hi'
    subst hi'
    have := hbo.lt he hev hsh
    have := hb.fresh r hr
    omega

/-- What the end of an evaluation leaves behind: the population is evaluated, `b'` is its first best. -/
structure Judged (size : G → Nat) (m : Mode) (s : Run G κ) (b' : Nat) : Prop where
  log : BestAlways size m.hib s.log
  best : ∃ b, s.bestOfRun = some b ∧ (∃ x, HasScore size m.hib s.w b x) ∧
    (Beats size m.hib s.w b' b → BestOf size m.hib s.log s.w.heap b') ∧
    (¬ Beats size m.hib s.w b' b → BestOf size m.hib s.log s.w.heap b)
  pop : ∃ is, s.inds = [some is] ∧ is.Nodup ∧ (∀ r ∈ is, modeAt s.w r = some m) ∧
    Evaluated size m.hib s.w is ∧ b' ∈ is

theorem evaluateBody_wlp {c : Cfg G κ} {sub : SubCfg G} {m : Mode} (hc : c.Ordinary sub m) {s : Run G κ}
    {is : List Nat} (hi : s.inds = [some is]) (hm : ∀ r ∈ is, modeAt s.w r = some m) {E : Run G κ → Prop}
    (hE : ∀ w, E { s with w := w }) :
    tri (evaluateBody c) (fun b s' => ∃ w, s' = { s with w := w } ∧ Ext (· ∈ is) s.w w ∧
      (∀ r, genomeAt w r = genomeAt s.w r) ∧ w.heap.length = s.w.heap.length ∧
      Evaluated c.size m.hib w is ∧ FirstBest (Beats c.size m.hib w) is b) E s := by
  unfold evaluateBody
  refine tri_bind (tri_get ?_)
  rw [hc.subs, hi]
  dsimp only
  refine tri_ite (fun _ => tri_raise (hE s.w)) fun _ => tri_world ?_ hE
  rw [hc.map]
  simp only [Bool.false_eq_true, if_false]
  refine (evaluateMap_wlp (d := m.hib) (fun r hr => modeAt_lt (hm r hr))
    (fun r hr i hri => modeAt_hib (hm r hr) hri)).mono fun b w h => ⟨w, by rw [hi], h⟩

theorem modeAt_ext {T : Nat → Prop} {w w' : World G} (e : Ext T w w') {r : Nat} (h : r < w.heap.length) :
    modeAt w' r = modeAt w r := e.mode h

theorem evaluate_bred {c : Cfg G κ} {sub : SubCfg G} {m : Mode} (hc : c.Ordinary sub m) {s : Run G κ}
    (h : Bred c.size m s) :
    tri (evaluatePopulation c) (fun b s' => Judged c.size m s' b) (LogOK c.size m) s := by
  unfold evaluatePopulation act
  refine tri_bind (tri_publish ?_)
  have h1 := h.push (p := "population_evaluator") (n := "before_operator") (by simp)
  generalize s.push "population_evaluator" "before_operator" = s₁ at h1
  obtain ⟨is, hi, hn, hm⟩ := h1.alive.pop
  refine tri_bind ((evaluateBody_wlp hc hi hm (fun w => h1.alive.log)).mono ?_)
  rintro b' _ ⟨w, rfl, e, -, hl, hev, hfb⟩
  refine tri_bind (tri_publish (tri_pure ?_))
  obtain ⟨b, hb, hbo⟩ := h1.alive.best
  have hbo' : BestOf c.size m.hib s₁.log w.heap b := by
    obtain ⟨⟨eb, heb, hevb, hsb⟩, hall⟩ := hbo
    have key : ∀ e₁ ∈ s₁.log, e₁.IsEval → ∀ r, e₁.Shows r → essence w.heap r = essence s₁.w.heap r := by
      intro e₁ he₁ hev₁ r hr
      have hlt := BestOf.lt ⟨⟨eb, heb, hevb, hsb⟩, hall⟩ he₁ hev₁ hr
      exact essence_of_heap (e.same r hlt fun hm => h1.unseen is hi e₁ he₁ hev₁ r hm hr)
    refine ⟨⟨eb, heb, hevb, hsb⟩, fun e₁ he₁ hev₁ r hr => ?_⟩
    obtain ⟨g1, g2, g3⟩ := hall e₁ he₁ hev₁ r hr
    have k1 := key e₁ he₁ hev₁ r hr
    have k2 := key eb heb hevb b hsb
    exact ⟨g1, k1.trans g2, by rwa [beats_congr k1 k2]⟩
  have hevent : Event.IsEval (G := G) ⟨"population_evaluator", "after_operator",
      ({ s₁ with w := w } : Run G κ).snapshot⟩ := ⟨rfl, rfl⟩
  have hnext := hbo'.next hevent (by rfl) (show _ = [some is] from hi)
    (fun r hr => (hev r hr).imp fun x hx => hasScore_ofHeap.2 hx) (b' := b') (by
      obtain ⟨pre, post, hl, h1, h2⟩ := hfb
      exact ⟨pre, post, hl, fun p hp => beats_ofHeap.2 (h1 p hp), fun p hp hc => h2 p hp (beats_ofHeap.1 hc)⟩)
  obtain ⟨eb, heb, hevb, hsb⟩ := hbo'.1
  refine ⟨h1.alive.log.snoc (by simp), ⟨b, hb, ?_, ?_, ?_⟩, is, hi, hn, ?_, hev, hfb.mem⟩
  · obtain ⟨x, hx⟩ := hbo'.score heb hevb hsb
    exact ⟨x, hasScore_ofHeap.1 hx⟩
  · exact fun hbt => hnext.1 (beats_ofHeap.2 hbt)
  · exact fun hbt => hnext.2 fun hc => hbt (beats_ofHeap.1 hc)
  · intro r hr
    show modeAt w r = some m
    rw [modeAt_ext e (modeAt_lt (hm r hr))]
    exact hm r hr

theorem recordBest_judged {c : Cfg G κ} {m : Mode} {s : Run G κ} {b' : Nat} (h : Judged c.size m s b') :
    tri (recordBest c b') (fun _ s' => Alive c.size m s') (LogOK c.size m) s := by
  unfold recordBest
  refine tri_bind (tri_get ?_)
  obtain ⟨b, hb, ⟨x, hx⟩, h1, h2⟩ := h.best
  obtain ⟨is, hi, hn, hm, hev, hmem⟩ := h.pop
  obtain ⟨y, hy⟩ := hev b' hmem
  obtain ⟨v, hv, hvi⟩ := betterOf_eq hy hx
  refine tri_bind (tri_world (E := LogOK c.size m) ?_ fun w => h.log)
  rw [wlp_reading, hb, hv]
  intro v' hv'
  simp only [Except.ok.injEq] at hv'
  subst hv'
  refine tri_ite (fun hvt => tri_modify ?_) (fun hvf => tri_pure ?_)
  · exact ⟨h.log, ⟨b', rfl, h1 ((beats_iff hy hx).2 (hvi.1 hvt))⟩, is, hi, hn, hm⟩
  · exact ⟨h.log, ⟨b, rfl, h2 fun hc => hvf (hvi.2 ((beats_iff hy hx).1 hc))⟩, is, hi, hn, hm⟩

theorem recordWorst_alive {c : Cfg G κ} {m : Mode} {s : Run G κ} (h : Alive c.size m s) :
    tri (recordWorst c) (fun _ s' => Alive c.size m s') (LogOK c.size m) s := by
  unfold recordWorst
  refine tri_bind (tri_get ?_)
  split
  · refine tri_bind (tri_world (E := LogOK c.size m) ?_ fun w => h.log)
    rw [wlp_reading]
    intro w _
    exact tri_modify ⟨h.log, h.best, h.pop⟩
  · exact tri_raise h.log

theorem generation_alive {c : Cfg G κ} {sub : SubCfg G} {m : Mode} (hc : c.Ordinary sub m) {s : Run G κ}
    (h : Alive c.size m s) :
    tri (generationIteration c) (fun _ s' => Alive c.size m s') (LogOK c.size m) s := by
  unfold generationIteration
  refine tri_bind ((breed_alive hc h).mono fun _ s₁ h1 => ?_)
  refine tri_bind ((evaluate_bred hc h1).mono fun b s₂ h2 => ?_)
  refine tri_bind (tri_modify ?_)
  have h3 : Judged c.size m { s₂ with bestOfGen := some b } b := ⟨h2.log, h2.best, h2.pop⟩
  exact tri_bind ((recordBest_judged h3).mono fun _ s₃ h4 => recordWorst_alive h4)

theorem shouldTerminate_alive {c : Cfg G κ} {m : Mode} {s : Run G κ} (h : Alive c.size m s) (gen : Nat) :
    tri (shouldTerminate c gen) (fun _ s' => Alive c.size m s') (LogOK c.size m) s := by
  have key : ∀ ks : List κ, Alive c.size m { s with checkers := ks } := fun ks => ⟨h.log, h.best, h.pop⟩
  intro r s' e
  unfold shouldTerminate at e
  split at e
  · simp only [Prod.mk.injEq] at e
    obtain ⟨rfl, rfl⟩ := e
    exact h
  · split at e
    · simp only [Prod.mk.injEq] at e
      obtain ⟨rfl, rfl⟩ := e
      split
      · exact key _
      · exact (key []).log
    · simp only [Prod.mk.injEq] at e
      obtain ⟨rfl, rfl⟩ := e
      exact h.log
  · split at e
    · simp only [Prod.mk.injEq] at e
      obtain ⟨rfl, rfl⟩ := e
      exact (key []).log
    · simp only [Prod.mk.injEq] at e
      obtain ⟨rfl, rfl⟩ := e
      exact key _

theorem updateGen_alive {m : Mode} {s : Run G κ} (h : Alive size m s) (gen : Nat) :
    tri (updateGen gen) (fun _ s' => Alive size m s') (LogOK size m) s := by
  unfold updateGen
  refine tri_bind (tri_get ?_)
  obtain ⟨is, hi, -⟩ := h.pop
  rw [hi]
  unfold forL
  refine tri_bind (tri_world (E := LogOK size m) ?_ fun w => h.log)
  refine (wlp_forL (I := fun _ (w : World G) => w.heap.length = s.w.heap.length ∧
    ∀ r, essence w.heap r = essence s.w.heap r ∧ modeAt w r = modeAt s.w r)
    ⟨rfl, fun r => ⟨rfl, rfl⟩⟩ ?_).mono fun _ w hw => ?_
  · rintro pre a post w _ ⟨hl, hw⟩
    rw [wlp_update]
    refine ⟨by simpa using hl, fun r => ⟨?_, ?_⟩⟩
    · rw [← (hw r).1]
      exact essence_modify fun i => ⟨rfl, rfl, rfl⟩
    · rw [← (hw r).2]
      unfold modeAt
      simp only [List.getElem?_modify]
      cases w.heap[r]? with
      | none => rfl
      | some i => by_cases ha : a = r <;> simp [ha, Ind.mode]
  · unfold forL
    exact tri_pure (alive_world h (fun r _ => (hw.2 r).1) fun r _ => (hw.2 r).2)

theorem mainLoop_alive {c : Cfg G κ} {sub : SubCfg G} {m : Mode} (hc : c.Ordinary sub m) (n gen : Nat)
    {s : Run G κ} (h : Alive c.size m s) :
    tri (mainLoop c n gen) (fun _ s' => Alive c.size m s') (LogOK c.size m) s := by
  induction n generalizing gen s with
  | zero => exact tri_pure h
  | succ n ih =>
    unfold mainLoop
    refine tri_bind (tri_modify ?_)
    have h0 : Alive c.size m { s with genNum := gen } := ⟨h.log, h.best, h.pop⟩
    refine tri_bind ((updateGen_alive h0 gen).mono fun _ s₁ h1 => ?_)
    refine tri_bind (tri_get ?_)
    refine tri_bind (tri_modify ?_)
    refine tri_bind (tri_modify ?_)
    refine tri_bind ((generation_alive hc (⟨h1.log, h1.best, h1.pop⟩ : Alive c.size m
      { s₁ with w := { s₁.w with tape := c.stream (nextSeed s₁.genSeed) }, genSeed := nextSeed s₁.genSeed })).mono
      fun _ s₂ h2 => ?_)
    refine tri_bind ((shouldTerminate_alive h2 gen).mono fun stop s₃ h3 => ?_)
    refine tri_ite (fun _ => ?_) (fun _ => ?_)
    · refine tri_bind (tri_modify (tri_publish ?_))
      exact Alive.push (⟨h3.log, h3.best, h3.pop⟩ : Alive c.size m { s₃ with finalGen := some gen }) (by simp)
    · exact tri_bind (tri_publish (ih _ (h3.push (by simp))))

theorem createSub_ready {sub : SubCfg G} {m : Mode} (hd : m.hib = sub.hib)
    (hcr : ∀ create ∈ sub.creators, CreatorGood m create)
    {w : World G} (o : Option (List Nat))
    (ho : ∀ is, o = some is → is.Nodup ∧ ∀ r ∈ is, modeAt w r = some m) :
    wlp (createSub sub o) (fun res w' => ∃ is, res = some is ∧ is.Nodup ∧ ∀ r ∈ is, modeAt w' r = some m) w := by
  unfold createSub
  cases o with
  | some is => rw [wlp_pure]; exact ⟨is, rfl, ho is rfl⟩
  | none =>
    dsimp only
    rw [wlp_bind, wlp_rand]
    intro k t _
    cases hk : sub.creators[k]? with
    | none => simp
    | some create =>
      dsimp only
      rw [wlp_bind]
      rw [← hd]
      refine (hcr create (List.mem_of_getElem? hk) _ _).mono ?_
      rintro is w' ⟨-, hn, hr⟩
      rw [wlp_pure]
      exact ⟨is, rfl, hn, fun r h => (hr r h).2.2⟩

theorem initRun_alive {c : Cfg G κ} {sub : SubCfg G} {m : Mode} (hc : c.Ordinary sub m) {s : Run G κ}
    (hr : s.Ready m) (hlog : s.log = []) :
    tri (initRun c) (fun _ s' => Alive c.size m s') (LogOK c.size m) s := by
  have hempty : BestAlways c.size m.hib ([] : List (Event G)) := by
    intro past e future h; simp at h
  unfold initRun
  refine tri_bind (tri_get ?_)
  refine tri_bind (tri_modify ?_)
  refine tri_bind ?_
  unfold createPopulation
  refine tri_bind (tri_get ?_)
  refine tri_bind (tri_world (E := LogOK c.size m) ?_ fun w => by show BestAlways _ _ s.log; rw [hlog]; exact hempty)
  obtain ⟨o, ho, hgood⟩ : ∃ o, s.inds = [o] ∧ ∀ is, o = some is → is.Nodup ∧ ∀ r ∈ is, modeAt s.w r = some m := by
    rcases hr with h | ⟨is, h, h1, h2⟩
    · exact ⟨none, h, by simp⟩
    · exact ⟨some is, h, by rintro is' h'; cases h'; exact ⟨h1, h2⟩⟩
  rw [hc.subs]
  dsimp only
  rw [ho]
  show wlp (mapL _ [(sub, o)]) _ _
  unfold mapL
  rw [wlp_bind]
  refine (createSub_ready hc.dir hc.creators o (w := { s.w with tape := c.stream s.randomSeed }) hgood).mono ?_
  rintro res w ⟨is, rfl, hn, hm⟩
  unfold mapL
  rw [wlp_bind, wlp_pure, wlp_pure]
  refine tri_modify ?_
  refine tri_bind ?_
  unfold evaluatePopulation act
  refine tri_bind (tri_publish ?_)
  refine tri_bind ((evaluateBody_wlp hc (is := is) rfl hm (fun w => ?_)).mono ?_)
  · show BestAlways _ _ (s.log ++ [_])
    rw [hlog]
    exact hempty.snoc (by simp)
  rintro b _ ⟨w', rfl, e, -, -, hev, hfb⟩
  refine tri_bind (tri_publish (tri_pure ?_))
  refine tri_bind (tri_modify (tri_publish ?_))
  refine Alive.push ⟨?_, ⟨b, rfl, ?_⟩, is, rfl, hn, ?_⟩ (by simp)
  · show BestAlways _ _ (s.log ++ [_] ++ [_])
    rw [hlog]
    exact (hempty.snoc (by simp)).snoc (by simp)
  · show BestOf _ _ (s.log ++ [_] ++ [_]) _ _
    rw [hlog]
    refine BestOf.first (is := is) (by simp [Event.IsEval]) ⟨rfl, rfl⟩ rfl rfl
      (fun r hr => (hev r hr).imp fun x hx => hasScore_ofHeap.2 hx) ?_
    obtain ⟨pre, post, hl, h1, h2⟩ := hfb
    exact ⟨pre, post, hl, fun p hp => beats_ofHeap.2 (h1 p hp), fun p hp hc => h2 p hp (beats_ofHeap.1 hc)⟩
  · intro r hr
    show modeAt w' r = some m
    rw [modeAt_ext e (modeAt_lt (hm r hr))]
    exact hm r hr

end Verif.Evo
