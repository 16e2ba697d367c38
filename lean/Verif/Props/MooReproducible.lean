import Verif.Props.NSGA2Evolution
import Verif.Props.NSGA2Sorting
import Verif.Lemmas.MooTotal
import Verif.Lemmas.History

/-!
# C83 — are multi-objective runs reproducible from their seed?

`NSGA2FrontSorting` turns a `set` of individuals into a list (nsga2_front_sorting.py:61).  `Individual` defines
neither `__eq__` nor `__hash__`, so the iteration order of that set follows the memory addresses and no seed
determines it: it is the parameter `setOrder` of a run.
-/

namespace Verif.Moo
open PyM
variable {G : Type} {h : Heap} {vec : Nat → List ℚ} {m : Nat}

/-! ## One sorting -/

/-- All individuals have been evaluated, with the same positive number of objectives, and no two agree in the
first. -/
def Untied (h : Heap) (inds : List Nat) : Prop :=
  ∃ (m : Nat) (vec : Nat → List ℚ), 0 < m ∧ (∀ r ∈ inds, (h r).objs = some (vec r) ∧ (vec r).length = m) ∧
    inds.Pairwise fun a b => (vec a)[0]? ≠ (vec b)[0]?

/-- Sorting by different keys has one result. -/
theorem sortBy_unique {l l' : List (Nat × ℚ)} (hp : l.Perm l') (hd : ∀ a ∈ l, ∀ b ∈ l, a.2 = b.2 → a = b) :
    Py.sortBy (fun a b => decide (a.2 ≤ b.2)) l = Py.sortBy (fun a b => decide (a.2 ≤ b.2)) l' := by
  have htr : ∀ a b c : Nat × ℚ, decide (a.2 ≤ b.2) = true → decide (b.2 ≤ c.2) = true → decide (a.2 ≤ c.2) = true := by
    intro a b c h1 h2
    simp only [decide_eq_true_eq] at *
    exact le_trans h1 h2
  have hto : ∀ a b : Nat × ℚ, decide (a.2 ≤ b.2) = true ∨ decide (b.2 ≤ a.2) = true := by
    intro a b
    simp only [decide_eq_true_eq]
    exact le_total _ _
  have s1 := Py.sortBy_pairwise htr hto l
  have s2 := Py.sortBy_pairwise htr hto l'
  have hpp := ((Py.sortBy_perm (fun a b : Nat × ℚ => decide (a.2 ≤ b.2)) l).trans hp).trans (Py.sortBy_perm (fun a b : Nat × ℚ => decide (a.2 ≤ b.2)) l').symm
  refine hpp.eq_of_pairwise ?_ s1 s2
  intro a b ha hb h1 h2
  simp only [decide_eq_true_eq] at h1 h2
  exact hd a (Py.mem_sortBy.1 ha) b (hp.mem_iff.2 (Py.mem_sortBy.1 hb)) (le_antisymm h1 h2)

theorem crowdObj_unique {front front' : List Nat} (hp : front.Perm front') {j : Nat}
    (hv : ∀ r ∈ front, (h r).objs = some (vec r)) (hj : ∀ r ∈ front, j < (vec r).length)
    (hd : ∀ a ∈ front, ∀ b ∈ front, val vec j a = val vec j b → a = b) :
    crowdObj h front j = crowdObj h front' j := by
  unfold crowdObj
  rw [keys_ok hv hj, keys_ok (fun r hr => hv r (hp.mem_iff.2 hr)) (fun r hr => hj r (hp.mem_iff.2 hr))]
  dsimp only
  rw [sortBy_unique (hp.map _)]
  intro a ha b hb hab
  obtain ⟨x, hx, rfl⟩ := List.mem_map.1 ha
  obtain ⟨y, hy, rfl⟩ := List.mem_map.1 hb
  rw [hd x hx y hy hab]

theorem setAll_perm {f : Fit → Fit} (hf : ∀ x, f (f x) = f x) {l l' : List Nat} (hm : ∀ x, x ∈ l ↔ x ∈ l') :
    h.setAll f l = h.setAll f l' := by
  funext x
  by_cases hx : x ∈ l
  · rw [setAll_mem h hf hx, setAll_mem h hf ((hm x).1 hx)]
  · rw [setAll_other h f hx, setAll_other h f (fun h' => hx ((hm x).2 h'))]

theorem calcCrowding_unique {front front' : List Nat} (hp : front.Perm front') (hm0 : 0 < m)
    (hv : ∀ r ∈ front, (h r).objs = some (vec r)) (hm : ∀ r ∈ front, (vec r).length = m)
    (hd : ∀ a ∈ front, ∀ b ∈ front, val vec 0 a = val vec 0 b → a = b) :
    calcCrowding h front = calcCrowding h front' := by
  have h0 : h.setAll (fun f => { f with crowding := .fin 0 }) front = h.setAll (fun f => { f with crowding := .fin 0 }) front' :=
    setAll_perm (f := fun f => { f with crowding := .fin 0 }) (fun _ => rfl) fun x => hp.mem_iff
  have hv' : ∀ r ∈ front, (h.setAll (fun f => { f with crowding := .fin 0 }) front r).objs = some (vec r) := by
    intro r hr
    rw [setAll_mem h (f := fun f => { f with crowding := .fin 0 }) (fun _ => rfl) hr]
    exact hv r hr
  have key : crowdObjs (h.setAll (fun f => { f with crowding := .fin 0 }) front) front (List.range m) =
      crowdObjs (h.setAll (fun f => { f with crowding := .fin 0 }) front) front' (List.range m) := by
    obtain ⟨k, rfl⟩ := Nat.exists_eq_succ_of_ne_zero hm0.ne'
    rw [List.range_succ_eq_map]
    unfold crowdObjs
    rw [crowdObj_unique hp hv' (fun r hr => by rw [hm r hr]; exact hm0) hd]
  cases front with
  | nil =>
    have : front' = [] := by simpa using hp.symm
    subst this; rfl
  | cons x xs =>
    cases front' with
    | nil => simp at hp
    | cons y ys =>
      have hy : y ∈ x :: xs := hp.mem_iff.2 (by simp)
      have px : ((h.setAll (fun f => { f with crowding := .fin 0 }) (x :: xs)) x).pure = .ok (vec x) := by
        unfold Fit.pure; rw [hv' x (by simp)]
      have py : ((h.setAll (fun f => { f with crowding := .fin 0 }) (x :: xs)) y).pure = .ok (vec y) := by
        unfold Fit.pure; rw [hv' y hy]
      unfold calcCrowding
      dsimp only
      rw [← h0, px, py]
      dsimp only
      rw [hm x (by simp), hm y hy]
      exact key

/-- Two states of the loop that differ in the order of the individuals that are left. -/
structure SameBut (s s' : SortState) : Prop where
  heap : s'.heap = s.heap
  dom : s'.dom = s.dom
  source : s'.source.Perm s.source
  dest : s'.dest = s.dest
  rank : s'.rank = s.rank

theorem sortLoop_unique {order order' : Nat → List Nat → List Nat} (ho : ∀ k l, (order k l).Perm l)
    (ho' : ∀ k l, (order' k l).Perm l) (hm0 : 0 < m) (popSize : Int) (fuel : Nat) (s s' : SortState) (hss : SameBut s s')
    (hn : s.source.Nodup) (hv : ∀ r ∈ s.source, (s.heap r).objs = some (vec r)) (hm : ∀ r ∈ s.source, (vec r).length = m)
    (hd : ∀ a ∈ s.source, ∀ b ∈ s.source, val vec 0 a = val vec 0 b → a = b) :
    sortLoop order' popSize fuel s' = sortLoop order popSize fuel s := by
  induction fuel generalizing s s' with
  | zero =>
    unfold sortLoop
    rw [hss.dest, hss.heap]
  | succ fuel ih =>
    unfold sortLoop
    rw [hss.dest, hss.heap]
    by_cases hlt : (s.dest.length : Int) < popSize
    swap
    · rw [if_neg hlt, if_neg hlt]
    rw [if_pos hlt, if_pos hlt]
    dsimp only
    have hpf : (paretoFront s.dom s.source).Perm (paretoFront s'.dom s'.source) := by
      rw [hss.dom]; exact (hss.source.filter _).symm
    have hsub : ∀ r ∈ paretoFront s.dom s.source, r ∈ s.source := fun r hr => (List.mem_filter.1 hr).1
    have hcc : calcCrowding s'.heap (paretoFront s'.dom s'.source) = calcCrowding s.heap (paretoFront s.dom s.source) := by
      rw [hss.heap]
      exact (calcCrowding_unique hpf hm0 (fun r hr => hv r (hsub r hr)) (fun r hr => hm r (hsub r hr))
        (fun a ha b hb => hd a (hsub a ha) b (hsub b hb))).symm
    unfold sortStep
    rw [hcc]
    by_cases hne : paretoFront s.dom s.source = []
    · rw [hne]
      rfl
    obtain ⟨h', l, he, hl, hout, hsame, -⟩ := calcCrowding_spec hne (hn.filter _) (fun r hr => hv r (hsub r hr))
      (fun r hr => hm r (hsub r hr))
    rw [he]
    dsimp only
    rw [hss.rank, hss.dest, hss.dom]
    have hobjs : ∀ r, (h' r).objs = (s.heap r).objs := by
      intro r
      by_cases hr : r ∈ paretoFront s.dom s.source
      · obtain ⟨c, hc⟩ := hsame r hr
        rw [hc]
      · rw [hout r hr]
    have hobjs' : ∀ r, (h'.setAll (fun f => { f with rank := some s.rank }) l r).objs = (s.heap r).objs := by
      intro r
      by_cases hr : r ∈ l
      · rw [setAll_mem h' (f := fun f => { f with rank := some s.rank }) (fun _ => rfl) hr]
        exact hobjs r
      · rw [setAll_other h' _ hr, hobjs r]
    have hrem : ∀ r ∈ remaining (order s.rank) s.source (cut (h'.setAll (fun f => { f with rank := some s.rank }) l) popSize s.dest l),
        r ∈ s.source := by
      intro r hr
      have := (ho _ _).mem_iff.1 hr
      rw [List.mem_dedup] at this
      exact (List.mem_filter.1 this).1
    refine ih _ _ ⟨rfl, rfl, ?_, rfl, rfl⟩ ?_ ?_ ?_ ?_
    · refine (ho' _ _).trans (List.Perm.trans ?_ (ho _ _).symm)
      exact List.Perm.dedup (hss.source.filter _)
    · exact (ho _ _).nodup_iff.2 (List.nodup_dedup _)
    · intro r hr
      rw [hobjs' r]
      exact hv r (hrem r hr)
    · exact fun r hr => hm r (hrem r hr)
    · exact fun a ha b hb => hd a (hrem a ha) b (hrem b hb)

/-- The order of the sets does not matter for a sub-population without ties in the first objective: the survivors,
their order, and everything written into the fitness objects are the same. -/
theorem C83_sort_partial {order order' : Nat → List Nat → List Nat} (ho : ∀ k l, (order k l).Perm l)
    (ho' : ∀ k l, (order' k l).Perm l) {inds : List Nat} (hu : Untied h inds) (fuel : Nat) (dest : List Nat)
    (popSize : Option Int) : select order' fuel h inds dest popSize = select order fuel h inds dest popSize := by
  obtain ⟨m, vec, hm0, hv, hd⟩ := hu
  have hd' : ∀ a ∈ inds, ∀ b ∈ inds, val vec 0 a = val vec 0 b → a = b := by
    intro a ha b hb hab
    by_contra hne
    haveI : Std.Symm (fun a b => (vec a)[0]? ≠ (vec b)[0]?) := ⟨fun _ _ h => h.symm⟩
    apply hd.forall ha hb hne
    have la : 0 < (vec a).length := by rw [(hv a ha).2]; exact hm0
    have lb : 0 < (vec b).length := by rw [(hv b hb).2]; exact hm0
    simp only [val, List.getD_eq_getElem?_getD, List.getElem?_eq_getElem la, List.getElem?_eq_getElem lb,
      Option.getD_some] at hab ⊢
    rw [hab]
  have hn : inds.Nodup := by
    refine hd.imp fun {a b} hab he => hab (by rw [he])
  unfold select
  cases initDom h inds Dom.empty with
  | error e => rfl
  | ok d =>
    exact sortLoop_unique ho ho' hm0 _ fuel _ _ ⟨rfl, rfl, .refl _, rfl, rfl⟩ hn (fun r hr => (hv r hr).1)
      (fun r hr => (hv r hr).2) hd'

/-! ## Runs -/

/-- Whatever it does, `m` only adds events to the log. -/
def Logs {α : Type} (x : MRM G α) : Prop := ∀ s, ∀ e ∈ s.log, e ∈ (x s).2.log

theorem Logs.keeps {α : Type} {x : MRM G α} (hk : Keeps (fun s : MRun G => s.log) x) : Logs x := fun s e he => by
  rw [show (x s).2.log = s.log from hk s]; exact he

theorem Logs.bind {α β : Type} {x : MRM G α} {f : α → MRM G β} (hx : Logs x) (hf : ∀ a, Logs (f a)) :
    Logs (x >>= f) := by
  intro s e he
  rw [bind_run]
  have := hx s e he
  rcases hr : x s with ⟨r, s1⟩
  rw [hr] at this
  cases r with
  | error _ => exact this
  | ok a => exact hf a s1 e this

theorem Logs.publish (p n : String) : Logs (mpublish (G := G) p n) := fun s e he => List.mem_append_left _ he

theorem Logs.world {α : Type} (x : MM G α) : Logs (mworld x) := fun _ _ he => he

theorem Logs.pure {α : Type} (a : α) : Logs (G := G) (PyM.pure a) := fun _ _ he => he

theorem Logs.raise {α : Type} (e : Err) : Logs (G := G) (PyM.raise e : MRM G α) := fun _ _ he => he

theorem Logs.modify {f : MRun G → MRun G} (hf : ∀ s, (f s).log = s.log) : Logs (PyM.modify f) := fun s e he => by
  show e ∈ (f s).log
  rw [hf s]; exact he

theorem Logs.get : Logs (G := G) PyM.get := fun _ _ he => he

theorem Logs.act {α : Type} {p : String} {x : MRM G α} (hx : Logs x) : Logs (mact p x) :=
  (Logs.publish _ _).bind fun _ => hx.bind fun _ => (Logs.publish _ _).bind fun _ => Logs.pure _

theorem logs_individuals : Logs (G := G) individuals := by
  refine Logs.get.bind fun s => ?_
  cases s.inds with
  | none => exact Logs.raise _
  | some is => exact Logs.pure _

variable {c : MCfg G}

theorem logs_evaluate : Logs (mevaluate c) :=
  Logs.act (logs_individuals.bind fun _ => Logs.get.bind fun _ => Logs.world _)

theorem logs_breed : Logs (mbreed c) :=
  Logs.act (logs_individuals.bind fun _ => (Logs.world _).bind fun _ => fun _ _ he => he)

theorem logs_sort : Logs (msort c) :=
  logs_individuals.bind fun _ => Logs.get.bind fun _ => (Logs.world _).bind fun _ => fun _ _ he => he

theorem logs_fronts : Logs (G := G) mfronts := logs_individuals.bind fun _ => fun _ _ he => he

theorem logs_generation : Logs (mgeneration c) :=
  logs_breed.bind fun _ => logs_evaluate.bind fun _ => logs_sort.bind fun _ => logs_fronts

theorem logs_stop (gen : Nat) : Logs (mstop c gen) := by
  refine Logs.get.bind fun s => ?_
  cases c.checker s.w.fits (s.inds.getD []) s.bestOfRun gen <;> exact fun _ _ he => he

theorem logs_loop (n gen : Nat) : Logs (mloop c n gen) := by
  induction n generalizing gen with
  | zero => exact Logs.pure _
  | succ n ih =>
    unfold mloop
    refine Logs.bind (fun _ _ he => he) fun _ => logs_individuals.bind fun _ => Logs.get.bind fun _ => ?_
    refine Logs.bind (fun _ _ he => he) fun _ => Logs.bind (fun _ _ he => he) fun _ => logs_generation.bind fun _ => ?_
    refine (logs_stop _).bind fun stop => ?_
    cases stop
    · exact (Logs.publish _ _).bind fun _ => ih _
    · exact Logs.bind (fun _ _ he => he) fun _ => Logs.publish _ _

theorem logs_afterInit : Logs (mafterInit c) := by
  refine Logs.get.bind fun s => (logs_stop _).bind fun stop => ?_
  cases stop
  · exact logs_loop _ _
  · exact Logs.bind (fun _ _ he => he) fun _ => Logs.publish _ _

theorem logs_finish : Logs (G := G) mfinish := by
  refine Logs.get.bind fun s => ?_
  cases s.bestOfRun with
  | none => exact Logs.raise _
  | some r =>
    refine Logs.bind (fun _ _ he => ?_) fun _ => Logs.pure _
    cases (s.w.fits r).pure <;> exact he

/-- In the events so far, the populations to be sorted had no ties. -/
def NoTies (s : MRun G) : Prop :=
  ∀ e ∈ s.log, e.publisher = "population_evaluator" → e.name = "after_operator" → 1 ≤ e.genNum → Untied e.fits e.inds

/-- `x'` does the same as `x` if `x` meets no ties. -/
def Agree {α : Type} (P : MRun G → Prop) (x x' : MRM G α) : Prop := ∀ s, P s → NoTies (x s).2 → x' s = x s

theorem Agree.refl {α : Type} {P : MRun G → Prop} (x : MRM G α) : Agree P x x := fun _ _ _ => rfl

theorem Agree.bind {α β : Type} {P Q : MRun G → Prop} {x x' : MRM G α} {f f' : α → MRM G β} (hx : Agree P x x')
    (hq : ∀ s, P s → Q (x s).2) (hf : ∀ a, Agree Q (f a) (f' a)) (hl : ∀ a, Logs (f a)) : Agree P (x >>= f) (x' >>= f') := by
  intro s hp hn
  rw [bind_run] at hn ⊢
  rw [bind_run]
  have hq := hq s hp
  have hx := hx s hp
  rcases hr : x s with ⟨r, s1⟩
  rw [hr] at hn hq hx
  cases r with
  | error e => rw [hx hn]
  | ok a =>
    dsimp only at hn hq hx
    rw [hx fun e he => hn e (hl a s1 e he)]
    exact hf a s1 hq hn

theorem keeps_genNum_world {α : Type} (x : MM G α) : Keeps (fun s : MRun G => s.genNum) (mworld x) := fun _ => rfl

theorem keeps_genNum_individuals : Keeps (fun s : MRun G => s.genNum) individuals := by
  refine Keeps.bind (fun _ => rfl) fun s => ?_
  cases s.inds with
  | none => exact Keeps.raise _
  | some is => exact Keeps.pure _

theorem keeps_genNum_act {α : Type} {p : String} {x : MRM G α} (hx : Keeps (fun s : MRun G => s.genNum) x) :
    Keeps (fun s : MRun G => s.genNum) (mact p x) :=
  Keeps.bind (fun _ => rfl) fun _ => hx.bind fun _ => Keeps.bind (fun _ => rfl) fun _ => Keeps.pure _

theorem keeps_genNum_breed : Keeps (fun s : MRun G => s.genNum) (mbreed c) :=
  keeps_genNum_act (keeps_genNum_individuals.bind fun _ => (keeps_genNum_world _).bind fun _ => fun _ => rfl)

theorem keeps_genNum_evaluate : Keeps (fun s : MRun G => s.genNum) (mevaluate c) :=
  keeps_genNum_act (keeps_genNum_individuals.bind fun _ => Keeps.bind (fun _ => rfl) fun _ => keeps_genNum_world _)

/-- When the evaluator has returned, its `after_operator` event is the last one. -/
theorem evaluate_logged {s s' : MRun G} {b : Nat} (hr : mevaluate c s = (.ok b, s')) :
    s'.event "population_evaluator" "after_operator" ∈ s'.log := by
  unfold mevaluate mact at hr
  obtain ⟨u, s1, h1, hr⟩ := bind_ok.1 hr
  obtain ⟨b', s2, h2, hr⟩ := bind_ok.1 hr
  obtain ⟨u', s3, h3, hr⟩ := bind_ok.1 hr
  cases hr
  cases h3
  exact List.mem_append_right _ (List.mem_singleton.2 rfl)

variable {order' : Nat → Nat → List Nat → List Nat}

/-- Sorting a population without ties. -/
theorem sort_unique (ho : ∀ g k l, (c.setOrder g k l).Perm l) (ho' : ∀ g k l, (order' g k l).Perm l) {s : MRun G}
    (hu : Untied s.w.fits (s.inds.getD [])) : msort { c with setOrder := order' } s = msort c s := by
  unfold msort
  cases hi : s.inds with
  | none =>
    have : individuals s = (.error .typeError, s) := by
      unfold individuals
      rw [bind_of_ok (show PyM.get s = (.ok s, s) from rfl), hi]
      rfl
    rw [bind_of_error this, bind_of_error this]
  | some is =>
    replace hu : Untied s.w.fits is := by rw [hi] at hu; exact hu
    have : individuals s = (.ok is, s) := by
      unfold individuals
      rw [bind_of_ok (show PyM.get s = (.ok s, s) from rfl), hi]
      rfl
    rw [bind_of_ok this, bind_of_ok this, bind_of_ok (show PyM.get s = (.ok s, s) from rfl),
      bind_of_ok (show PyM.get s = (.ok s, s) from rfl)]
    have hs : sortM (order' s.genNum) is s.w = sortM (c.setOrder s.genNum) is s.w := by
      unfold sortM
      rw [bind_of_ok (show PyM.get s.w = (.ok s.w, s.w) from rfl), bind_of_ok (show PyM.get s.w = (.ok s.w, s.w) from rfl),
        C83_sort_partial (ho _) (ho' _) hu]
    have hw : mworld (sortM (order' s.genNum) is) s = mworld (sortM (c.setOrder s.genNum) is) s := by
      unfold mworld zoom
      rw [hs]
    rw [bind_run, bind_run, hw]

theorem agree_generation (ho : ∀ g k l, (c.setOrder g k l).Perm l) (ho' : ∀ g k l, (order' g k l).Perm l) :
    Agree (fun s => 1 ≤ s.genNum) (mgeneration c) (mgeneration { c with setOrder := order' }) := by
  unfold mgeneration
  refine Agree.bind (Q := fun s => 1 ≤ s.genNum) (Agree.refl _) (fun s hs => ?_) (fun _ => ?_)
    fun _ => logs_evaluate.bind fun _ => logs_sort.bind fun _ => logs_fronts
  · rw [show (mbreed c s).2.genNum = s.genNum from keeps_genNum_breed s]
    exact hs
  · intro s hg hn
    show (mevaluate c >>= fun _ => msort { c with setOrder := order' } >>= fun _ => mfronts) s = _
    rw [bind_run] at hn ⊢
    rw [bind_run]
    have hg' : (mevaluate c s).2.genNum = s.genNum := keeps_genNum_evaluate s
    rcases hr : mevaluate c s with ⟨r, s1⟩
    rw [hr] at hn hg'
    cases r with
    | error e => rfl
    | ok b =>
      dsimp only at hn hg' ⊢
      have hlog := ((logs_sort (c := c)).bind fun _ => logs_fronts) s1 _ (evaluate_logged hr)
      have hu := hn _ hlog rfl rfl (by show 1 ≤ s1.genNum; omega)
      rw [bind_run, bind_run, sort_unique ho ho' hu]

/-- What follows the generation in the loop. -/
theorem logs_tail (n gen : Nat) (stop : Bool) : Logs (G := G) (if stop then do
        PyM.modify fun s => { s with finalGen := some gen }
        mpublish "algorithm" "after_generation"
      else do
        mpublish "algorithm" "after_generation"
        mloop c n (gen + 1)) := by
  cases stop
  · exact (Logs.publish _ _).bind fun _ => logs_loop _ _
  · exact (Logs.modify fun _ => rfl).bind fun _ => Logs.publish _ _

theorem agree_loop (ho : ∀ g k l, (c.setOrder g k l).Perm l) (ho' : ∀ g k l, (order' g k l).Perm l) (n gen : Nat)
    (hg : 1 ≤ gen) : Agree (fun _ => True) (mloop c n gen) (mloop { c with setOrder := order' } n gen) := by
  induction n generalizing gen with
  | zero => exact Agree.refl _
  | succ n ih =>
    unfold mloop
    refine Agree.bind (Q := fun s => 1 ≤ s.genNum) (Agree.refl _) (fun s _ => hg) (fun _ => ?_) (fun _ => ?_)
    · refine Agree.bind (Q := fun s => 1 ≤ s.genNum) (Agree.refl _) (fun s hs => ?_) (fun _ => ?_) (fun _ => ?_)
      · rw [show (individuals s).2.genNum = s.genNum from keeps_genNum_individuals s]
        exact hs
      · refine Agree.bind (Q := fun s => 1 ≤ s.genNum) (Agree.refl _) (fun s hs => hs) (fun s0 => ?_) (fun _ => ?_)
        · refine Agree.bind (Q := fun s => 1 ≤ s.genNum) (Agree.refl _) (fun s hs => hs) (fun _ => ?_) (fun _ => ?_)
          · refine Agree.bind (Q := fun s => 1 ≤ s.genNum) (Agree.refl _) (fun s hs => hs) (fun _ => ?_) (fun _ => ?_)
            · refine Agree.bind (Q := fun _ => True) (agree_generation ho ho') (fun _ _ => trivial) (fun _ => ?_) (fun _ => ?_)
              · refine Agree.bind (Q := fun _ => True) (Agree.refl _) (fun _ _ => trivial) (fun stop => ?_) (fun _ => ?_)
                · cases stop
                  · simp only [Bool.false_eq_true, if_false]
                    exact Agree.bind (Q := fun _ => True) (Agree.refl _) (fun _ _ => trivial) (fun _ => ih _ (by omega))
                      fun _ => logs_loop _ _
                  · simp only [if_true]
                    exact Agree.refl _
                · exact logs_tail _ _ _
              · refine (logs_stop _).bind fun _ => ?_
                exact logs_tail _ _ _
            · refine logs_generation.bind fun _ => ?_
              refine (logs_stop _).bind fun _ => ?_
              exact logs_tail _ _ _
          · refine Logs.bind (Logs.modify fun _ => rfl) fun _ => ?_
            refine logs_generation.bind fun _ => ?_
            refine (logs_stop _).bind fun _ => ?_
            exact logs_tail _ _ _
        · refine Logs.bind (Logs.modify fun _ => rfl) fun _ => ?_
          refine Logs.bind (Logs.modify fun _ => rfl) fun _ => ?_
          refine logs_generation.bind fun _ => ?_
          refine (logs_stop _).bind fun _ => ?_
          exact logs_tail _ _ _
      · refine Logs.get.bind fun _ => ?_
        refine Logs.bind (Logs.modify fun _ => rfl) fun _ => ?_
        refine Logs.bind (Logs.modify fun _ => rfl) fun _ => ?_
        refine logs_generation.bind fun _ => ?_
        refine (logs_stop _).bind fun _ => ?_
        exact logs_tail _ _ _
    · refine logs_individuals.bind fun _ => ?_
      refine Logs.get.bind fun _ => ?_
      refine Logs.bind (Logs.modify fun _ => rfl) fun _ => ?_
      refine Logs.bind (Logs.modify fun _ => rfl) fun _ => ?_
      refine logs_generation.bind fun _ => ?_
      refine (logs_stop _).bind fun _ => ?_
      exact logs_tail _ _ _

/-- C83 without ties: if, in a run, no two individuals of a population that is sorted agree in their first objective,
then the run is the same with any other iteration order of the sets — all individuals, fitness objects and events, and
also the exception if it ends in one.  The populations that are sorted are those of the evaluator's `after_operator`
events of the generations from 1. -/
theorem C83_no_ties_partial (ho : ∀ g k l, (c.setOrder g k l).Perm l) (ho' : ∀ g k l, (order' g k l).Perm l) (s : MRun G)
    (hn : ∀ e ∈ (mevolve c s).2.log, e.publisher = "population_evaluator" → e.name = "after_operator" → 1 ≤ e.genNum →
      Untied e.fits e.inds) : mevolve { c with setOrder := order' } s = mevolve c s := by
  have hstop : ∀ stop : Bool, Logs (if stop then do
        PyM.modify fun s => { s with finalGen := some 0 }
        mpublish "algorithm" "after_generation"
      else mloop c c.maxGen 1) := by
    intro stop
    cases stop
    · exact logs_loop _ _
    · refine Logs.bind (Logs.modify fun _ => rfl) fun _ => ?_
      exact Logs.publish _ _
  have ha : Agree (fun _ => True) (mafterInit c) (mafterInit { c with setOrder := order' }) := by
    unfold mafterInit
    refine Agree.bind (Q := fun _ => True) (Agree.refl _) (fun _ _ => trivial) (fun s0 => ?_) (fun _ => ?_)
    · refine Agree.bind (Q := fun _ => True) (Agree.refl _) (fun _ _ => trivial) (fun stop => ?_) fun stop => hstop stop
      cases stop
      · simp only [Bool.false_eq_true, if_false]
        exact agree_loop ho ho' _ _ le_rfl
      · simp only [if_true]
        exact Agree.refl _
    · refine (logs_stop _).bind fun stop => ?_
      exact hstop stop
  have : Agree (fun _ => True) (mevolve c) (mevolve { c with setOrder := order' }) := by
    unfold mevolve
    refine Agree.bind (Q := fun _ => True) (Agree.refl _) (fun _ _ => trivial) (fun _ => ?_) (fun _ => ?_)
    · refine Agree.bind (Q := fun _ => True) ha (fun _ _ => trivial) (fun _ => ?_) (fun _ => ?_)
      · exact Agree.refl _
      · refine (Logs.publish _ _).bind fun _ => ?_
        exact logs_finish
    · refine logs_afterInit.bind fun _ => ?_
      refine (Logs.publish _ _).bind fun _ => ?_
      exact logs_finish
  exact this s trivial hn

/-! ## Thread timing -/

/-- Population evaluation with an evaluator that draws nothing does not depend on the order of the tasks. -/
theorem evaluateM_order {sub : MSub G} {f : G → Except Err (List ℚ)} (hf : ∀ g t, sub.evaluate g t = (f g, t))
    {order order₂ inds : List Nat} (hp : order.Perm (List.range inds.length)) (hp₂ : order₂.Perm (List.range inds.length))
    (hok : ∀ g, ∃ v, f g = .ok v) : evaluateM sub order inds = evaluateM sub order₂ inds := by
  funext w
  have key : ∀ order : List Nat, order.Perm (List.range inds.length) →
      Evo.executorMap order (runEvalM sub) inds w = (.ok (inds.map fun r => (hok (w.genome r)).choose), w) := by
    intro order hp
    obtain ⟨vs, w', hr, hvs, hw⟩ := Evo.executorMap_wp (s := w) hp (task := runEvalM sub)
      (val := fun r => (hok (w.genome r)).choose) (I := fun w' => w' = w) rfl (by
        rintro r hr w' rfl
        refine ⟨_, w', ?_, rfl, rfl⟩
        unfold runEvalM
        rw [bind_of_ok (show PyM.get w' = (.ok w', w') from rfl)]
        unfold mrand zoom
        rw [hf, ← (hok (w'.genome r)).choose_spec])
    rw [hr, hvs, hw]
  unfold evaluateM
  rw [bind_of_ok (key order hp), bind_of_ok (key order₂ hp₂)]

/-- C83 and the threads: with an evaluator that succeeds without drawing random numbers, a run is the same for all
orders in which the workers may evaluate the individuals. -/
theorem C83_threads_partial {f : G → List ℚ} (hf : ∀ g t, c.sub.evaluate g t = (.ok (f g), t))
    {sched' : Nat → Nat → List Nat} (h1 : ∀ gen n, (c.sched gen n).Perm (List.range n))
    (h2 : ∀ gen n, (sched' gen n).Perm (List.range n)) : mevolve { c with sched := sched' } = mevolve c := by
  have hev : mevaluateBody { c with sched := sched' } = mevaluateBody c := by
    unfold mevaluateBody
    congr 1
    funext is
    congr 1
    funext s
    dsimp only
    rw [evaluateM_order (f := fun g => .ok (f g)) hf (h2 _ _) (h1 _ _) fun g => ⟨_, rfl⟩]
  have hep : mevaluate { c with sched := sched' } = mevaluate c := by unfold mevaluate; rw [hev]
  have hgen : mgeneration { c with sched := sched' } = mgeneration c := by unfold mgeneration; rw [hep]; rfl
  have hloop : ∀ n gen, mloop { c with sched := sched' } n gen = mloop c n gen := by
    intro n
    induction n with
    | zero => intro gen; rfl
    | succ n ih =>
      intro gen
      unfold mloop
      rw [hgen, ih]
      rfl
  have hinit : minit { c with sched := sched' } = minit c := by unfold minit; rw [hep]; rfl
  have hafter : mafterInit { c with sched := sched' } = mafterInit c := by unfold mafterInit; rw [hloop]; rfl
  unfold mevolve
  rw [hinit, hafter]

/-- Nothing is drawn before the generators are seeded: the state of the random generator before the run does not
matter. -/
theorem C83_seeded_partial (s : MRun G) (t : Tape) : mevolve c { s with w := { s.w with tape := t } } = mevolve c s := rfl

/-! ## The counterexample -/

/-- The genomes of the final population. -/
def finalGenomes (r : Except Err Unit × MRun G) : List G := (r.2.inds.getD []).map r.2.w.genome

/-- C83: runs of a configuration with the same seed, from the same state, end with the same genomes in the population
(in whatever order), however the sets of individuals are laid out in memory. -/
def C83_statement : Prop :=
  ∀ (c : MCfg ℚ) (n m : Nat) (ds : List Bool) (s : MRun ℚ) (order' : Nat → Nat → List Nat → List Nat), c.Good n m ds →
    s.Fresh m ds → (∀ g k l, (order' g k l).Perm l) → (mevolve c s).1 = .ok () →
    (finalGenomes (mevolve { c with setOrder := order' } s)).Perm (finalGenomes (mevolve c s))

/-- The genome 0 dominates the others, which are tied. -/
def exTied : MCfg ℚ :=
  { exCfg true 1 with sub := { (exCfg true 1).sub with ops := [], evaluate := fun g => PyM.pure (if g = 0 then [0, 1] else [1, 0]) } }

theorem exTied_good : exTied.Good 4 2 [false, true] where
  creates := (exCfg_good true 1).creates
  ops := fun o ho => by simp [exTied] at ho
  sels := (exCfg_good true 1).sels
  evaluates := fun g t => by
    refine wlp_pure.2 ?_
    split <;> rfl
  directions := rfl
  order := (exCfg_good true 1).order

/-- The second order: the first element comes last. -/
def rotated (_ _ : Nat) (l : List Nat) : List Nat := l.tail ++ l.take 1

theorem rotated_perm (g k : Nat) (l : List Nat) : (rotated g k l).Perm l := by
  cases l with
  | nil => exact .refl _
  | cons a l => exact List.perm_append_comm

/-- C83 is false: ties are broken by the memory addresses of the individuals, and one run ends with other genomes than
the other. -/
theorem C83_refuted : ¬ C83_statement := by
  intro h
  have := h exTied 4 2 [false, true] exRun rotated exTied_good exRun_fresh rotated_perm (by decide +kernel)
  revert this
  decide +kernel

/-! ## Examples -/

/-- A population without ties. -/
example : Untied (fun r => .new (some [(r : ℚ), 1]) (.each [true, true]) false false) [2, 5, 3] :=
  ⟨2, fun r => [(r : ℚ), 1], by decide, fun r _ => ⟨rfl, rfl⟩, by simp⟩

/-- A check for `Untied`. -/
def untiedCheck (m : Nat) (h : Heap) (inds : List Nat) : Bool :=
  decide (0 < m) && inds.all (fun r => decide ((h r).objs.isSome ∧ ((h r).objs.getD []).length = m)) &&
    decide (inds.Pairwise fun a b => ((h a).objs.getD [])[0]? ≠ ((h b).objs.getD [])[0]?)

theorem untied_of_check {inds : List Nat} (hc : untiedCheck m h inds = true) : Untied h inds := by
  simp only [untiedCheck, Bool.and_eq_true, decide_eq_true_eq, List.all_eq_true] at hc
  refine ⟨m, fun r => (h r).objs.getD [], hc.1.1, fun r hr => ⟨?_, (hc.1.2 r hr).2⟩, hc.2⟩
  obtain ⟨v, hv⟩ := Option.isSome_iff_exists.1 (hc.1.2 r hr).1
  simp [hv]

/-- The first generation of the example of `Props.NSGA2Evolution`: eight individuals, sorted without ties. -/
theorem exUntied_log : ((mevolve (exCfg true 1) exRun).2.log.all fun e =>
    !(decide (e.publisher = "population_evaluator") && decide (e.name = "after_operator") && decide (1 ≤ e.genNum)) ||
      untiedCheck 2 e.fits e.inds) = true := by decide +kernel

example : mevolve { exCfg true 1 with setOrder := rotated } exRun = mevolve (exCfg true 1) exRun := by
  refine C83_no_ties_partial (exCfg_good true 1).order rotated_perm exRun fun e he h1 h2 h3 => ?_
  have := List.all_eq_true.1 exUntied_log e he
  simp only [h1, h2, h3, decide_true, Bool.and_self, Bool.not_true, Bool.false_or] at this
  exact untied_of_check this

example : mevolve { exCfg true 1 with sched := fun _ n => (List.range n).reverse } = mevolve (exCfg true 1) :=
  C83_threads_partial (f := fun g => [g, g * (5 - g)]) (fun _ _ => rfl) (fun _ _ => .refl _) fun _ _ => List.reverse_perm _

end Verif.Moo
