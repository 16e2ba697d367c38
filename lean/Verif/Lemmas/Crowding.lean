import Verif.Props.NSGA2Fitness

/-! # The crowding distances computed for a front -/

namespace Verif.Moo

theorem Heap.set_self (h : Heap) (r : Nat) (f : Fit → Fit) : h.set r f r = f (h r) := by simp [Heap.set]

theorem Heap.set_other (h : Heap) {r x : Nat} (f : Fit → Fit) (hx : x ≠ r) : h.set r f x = h x := by
  simp [Heap.set, hx]

theorem Crowd.add_zero' (c : Crowd) : c.add 0 = c := by cases c <;> simp [Crowd.add]

theorem Crowd.add_add (c : Crowd) (p q : ℚ) : (c.add p).add q = c.add (p + q) := by
  cases c <;> simp [Crowd.add, add_assoc]

theorem setAll_other (h : Heap) (f : Fit → Fit) {rs : List Nat} {x : Nat} (hx : x ∉ rs) :
    h.setAll f rs x = h x := by
  induction rs generalizing h with
  | nil => rfl
  | cons r rs ih =>
    simp only [List.mem_cons, not_or] at hx
    rw [Heap.setAll, ih _ hx.2, Heap.set_other _ _ hx.1]

theorem setAll_mem (h : Heap) {f : Fit → Fit} (hf : ∀ x, f (f x) = f x) {rs : List Nat} {x : Nat} (hx : x ∈ rs) :
    h.setAll f rs x = f (h x) := by
  induction rs generalizing h with
  | nil => simp at hx
  | cons r rs ih =>
    rw [Heap.setAll]
    by_cases h1 : x ∈ rs
    · rw [ih _ h1]
      by_cases h2 : x = r
      · subst h2; rw [Heap.set_self, hf]
      · rw [Heap.set_other _ _ h2]
    · rw [setAll_other _ _ h1]
      simp only [List.mem_cons, h1, or_false] at hx
      subst hx
      rw [Heap.set_self]

/-- Objective `j` of `r`. -/
def val (vec : Nat → List ℚ) (j r : Nat) : ℚ := (vec r).getD j 0

theorem keys_ok {h : Heap} {vec : Nat → List ℚ} {j : Nat} {rs : List Nat}
    (hv : ∀ r ∈ rs, (h r).objs = some (vec r)) (hj : ∀ r ∈ rs, j < (vec r).length) :
    keys h j rs = .ok (rs.map fun r => (r, val vec j r)) := by
  induction rs with
  | nil => rfl
  | cons r rs ih =>
    unfold keys Fit.pure
    rw [hv r (by simp)]
    have := hj r (by simp)
    simp only
    rw [List.getElem?_eq_getElem this]
    simp only
    rw [ih (fun r hr => hv r (by simp [hr])) (fun r hr => hj r (by simp [hr]))]
    simp [val, List.getD_eq_getElem?_getD, List.getElem?_eq_getElem this]

theorem addGaps_other (d : ℚ) (ks : List (Nat × ℚ)) (h : Heap) {r : Nat}
    (hr : ∀ pre a b c post, ks = pre ++ a :: b :: c :: post → b.1 ≠ r) : addGaps d ks h r = h r := by
  induction ks, h using addGaps.induct (d := d) with
  | case1 a b c rest h ih =>
    rw [addGaps, ih]
    · exact Heap.set_other _ _ (Ne.symm (hr [] a b c rest rfl))
    · intro pre a' b' c' post he
      exact hr (a :: pre) a' b' c' post (by rw [he]; rfl)
  | case2 ks h hne =>
    unfold addGaps
    split
    · exact absurd rfl (hne _ _ _ _)
    · rfl

theorem addGaps_inner (d : ℚ) (ks : List (Nat × ℚ)) (h : Heap) (hn : (ks.map Prod.fst).Nodup)
    {pre : List (Nat × ℚ)} {a b c : Nat × ℚ} {post : List (Nat × ℚ)}
    (hs : ks = pre ++ a :: b :: c :: post) :
    addGaps d ks h b.1 = { h b.1 with crowding := (h b.1).crowding.add ((c.2 - a.2) / d) } := by
  induction ks, h using addGaps.induct (d := d) generalizing pre a b c post with
  | case1 a' b' c' rest h ih =>
    have hn' : ((b' :: c' :: rest).map Prod.fst).Nodup := (List.nodup_cons.1 hn).2
    rw [addGaps]
    cases pre with
    | nil =>
      simp only [List.nil_append, List.cons.injEq] at hs
      obtain ⟨rfl, rfl, rfl, rfl⟩ := hs
      rw [addGaps_other]
      · unfold Heap.addCrowd; rw [Heap.set_self]
      · intro pre x y z post he hy
        have hmem : y.1 ∈ ((c' :: rest).map Prod.fst) := by
          cases pre with
          | nil =>
            simp only [List.nil_append, List.cons.injEq] at he
            rw [he.2.1]; simp
          | cons p pre =>
            simp only [List.cons_append, List.cons.injEq] at he
            rw [he.2]; simp
        rw [List.map_cons, List.nodup_cons] at hn'
        exact hn'.1 (hy ▸ hmem)
    | cons p pre =>
      simp only [List.cons_append, List.cons.injEq] at hs
      obtain ⟨rfl, hs⟩ := hs
      rw [ih hn' hs]
      have hne : b.1 ≠ b'.1 := by
        have hmem : b.1 ∈ ((c' :: rest).map Prod.fst) := by
          cases pre with
          | nil =>
            simp only [List.nil_append, List.cons.injEq] at hs
            rw [hs.2.1]; simp
          | cons p pre =>
            simp only [List.cons_append, List.cons.injEq] at hs
            rw [hs.2]; simp
        rw [List.map_cons, List.nodup_cons] at hn'
        intro he
        exact hn'.1 (he ▸ hmem)
      unfold Heap.addCrowd
      rw [Heap.set_other _ _ hne]
  | case2 ks h hne =>
    exfalso
    cases pre with
    | nil => exact hne a b c post hs
    | cons p pre =>
      cases pre with
      | nil => exact hne p a b (c :: post) hs
      | cons p' pre =>
        cases pre with
        | nil => exact hne p p' a (b :: c :: post) hs
        | cons p'' pre => exact hne p p' p'' (pre ++ a :: b :: c :: post) hs

/-- An element of a list that is neither its first nor its last has two neighbours. -/
theorem split_inner {α : Type} {l : List α} {x : α} (hx : x ∈ l) (h1 : l.head? ≠ some x)
    (h2 : l.getLast? ≠ some x) : ∃ pre a c post, l = pre ++ a :: x :: c :: post := by
  obtain ⟨p, q, rfl⟩ := List.append_of_mem hx
  rcases List.eq_nil_or_concat p with rfl | ⟨p, a, rfl⟩
  · simp at h1
  · cases q with
    | nil => simp at h2
    | cons c q => exact ⟨p, a, c, q, by simp⟩

theorem not_inner_head {α : Type} {l pre post : List α} {x a c : α} (hn : l.Nodup)
    (h : l = pre ++ a :: x :: c :: post) : l.head? ≠ some x ∧ l.getLast? ≠ some x := by
  subst h
  rw [List.nodup_append] at hn
  obtain ⟨-, hn2, hn3⟩ := hn
  simp only [List.nodup_cons, List.mem_cons, not_or] at hn2
  obtain ⟨⟨hax, -, -⟩, ⟨hxc, hxp⟩, -⟩ := hn2
  constructor
  · cases pre with
    | nil => simp only [List.nil_append, List.head?_cons, ne_eq, Option.some.injEq]; exact hax
    | cons p pre =>
      simp only [List.cons_append, List.head?_cons, ne_eq, Option.some.injEq]
      exact hn3 p (by simp) x (by simp)
  · rw [List.getLast?_append, List.getLast?_cons_cons, List.getLast?_cons_cons]
    intro he
    rcases List.eq_nil_or_concat post with rfl | ⟨q, z, rfl⟩
    · simp at he; exact hxc he.symm
    · rw [List.concat_eq_append] at he hxp
      rw [← List.cons_append, List.getLast?_concat] at he
      simp only [Option.some_or, Option.some.injEq] at he
      exact hxp (by simp [he])

/-- What the gap of `r` in objective `j` is, for a front listed as `l` in ascending order of that objective:
the difference of the two neighbours over the range of the objective, and nothing if the range is zero. -/
def IsGap (vec : Nat → List ℚ) (j : Nat) (l : List Nat) (r : Nat) (g : ℚ) : Prop :=
  ∃ pre a c post lo hi, l = pre ++ a :: r :: c :: post ∧ l.head? = some lo ∧ l.getLast? = some hi ∧
    ((val vec j hi = val vec j lo ∧ g = 0) ∨
     (val vec j hi ≠ val vec j lo ∧ g = (val vec j c - val vec j a) / (val vec j hi - val vec j lo)))

/-- `l` lists the front in ascending order of objective `j`. -/
def Lists (vec : Nat → List ℚ) (j : Nat) (front l : List Nat) : Prop :=
  l.Perm front ∧ l.Pairwise fun a b => val vec j a ≤ val vec j b

/-- `r` is at one of the ends of `l`. -/
def AtEnd (l : List Nat) (r : Nat) : Prop := l.head? = some r ∨ l.getLast? = some r

theorem crowdObj_spec {h : Heap} {vec : Nat → List ℚ} {front : List Nat} {j : Nat} (hne : front ≠ [])
    (hn : front.Nodup) (hv : ∀ r ∈ front, (h r).objs = some (vec r)) (hj : ∀ r ∈ front, j < (vec r).length) :
    ∃ h' l, crowdObj h front j = .ok (h', l) ∧ Lists vec j front l ∧ (∀ r, r ∉ front → h' r = h r) ∧
      (∀ r ∈ front, AtEnd l r → h' r = { h r with crowding := .inf }) ∧
      (∀ r ∈ front, ¬ AtEnd l r → ∃ g, IsGap vec j l r g ∧
        h' r = { h r with crowding := (h r).crowding.add g }) := by
  unfold crowdObj
  rw [keys_ok hv hj]
  dsimp only
  have hp := Py.sortBy_perm (fun a b : Nat × ℚ => decide (a.2 ≤ b.2)) (front.map fun r => (r, val vec j r))
  have hpw := Py.sortBy_pairwise (le := fun a b : Nat × ℚ => decide (a.2 ≤ b.2))
    (fun a b c h1 h2 => by simp only [decide_eq_true_eq] at *; exact h1.trans h2)
    (fun a b => by simp only [decide_eq_true_eq]; exact le_total _ _) (front.map fun r => (r, val vec j r))
  generalize Py.sortBy _ _ = ks at hp hpw ⊢
  cases ks with
  | nil =>
    have := hp.length_eq
    simp only [List.length_nil, List.length_map] at this
    exact absurd (List.length_eq_zero_iff.1 this.symm) hne
  | cons k rest =>
    dsimp only
    have hval : ∀ p ∈ k :: rest, p.2 = val vec j p.1 := by
      intro p hm
      obtain ⟨r, -, rfl⟩ := List.mem_map.1 (hp.mem_iff.1 hm)
      rfl
    set l := (k :: rest).map Prod.fst with hl
    set last := (k :: rest).getLast (by simp) with hlast
    have hperm : l.Perm front := by
      have := hp.map Prod.fst
      rw [List.map_map] at this
      simpa [Function.comp_def, hl] using this
    have hnl : l.Nodup := hperm.nodup_iff.2 hn
    have hlists : Lists vec j front l := by
      refine ⟨hperm, ?_⟩
      rw [hl, List.pairwise_map]
      refine hpw.imp_of_mem ?_
      intro a b ha hb hab
      rw [← hval a ha, ← hval b hb]
      simpa using hab
    have hlo : l.head? = some k.1 := rfl
    have hhi : l.getLast? = some last.1 := by
      rw [hl, List.getLast?_map, List.getLast?_eq_getLast_of_ne_nil (by simp)]
      rfl
    have hklast : last ∈ k :: rest := List.getLast_mem _
    have hk2 : k.2 = val vec j k.1 := hval k (by simp)
    have hl2 : last.2 = val vec j last.1 := hval last hklast
    set h1 := (h.setCrowd .inf k.1).setCrowd .inf last.1 with hh1
    have hends : ∀ r, AtEnd l r → h1 r = { h r with crowding := .inf } := by
      intro r hr
      rw [AtEnd, hlo, hhi] at hr
      simp only [Option.some.injEq] at hr
      rw [hh1]
      unfold Heap.setCrowd
      by_cases h2 : r = last.1
      · subst h2
        rw [Heap.set_self]
        by_cases h3 : last.1 = k.1
        · rw [h3, Heap.set_self]
        · rw [Heap.set_other _ _ h3]
      · rw [Heap.set_other _ _ h2]
        obtain rfl := hr.resolve_right (Ne.symm h2)
        rw [Heap.set_self]
    have hnoends : ∀ r, ¬ AtEnd l r → h1 r = h r := by
      intro r hr
      rw [AtEnd, hlo, hhi, not_or] at hr
      simp only [Option.some.injEq] at hr
      rw [hh1]
      unfold Heap.setCrowd
      rw [Heap.set_other _ _ (Ne.symm hr.2), Heap.set_other _ _ (Ne.symm hr.1)]
    have hout : ∀ r, r ∉ front → ¬ AtEnd l r := by
      intro r hr he
      apply hr
      rw [← hperm.mem_iff]
      rcases he with he | he
      · exact List.mem_of_head? he
      · exact List.mem_of_getLast? he
    have hinner : ∀ {pre a b c post}, k :: rest = pre ++ a :: b :: c :: post →
        l = pre.map Prod.fst ++ a.1 :: b.1 :: c.1 :: post.map Prod.fst := by
      intro pre a b c post he
      rw [hl, he]; simp
    refine ⟨_, _, rfl, hlists, ?_, ?_, ?_⟩
    · intro r hr
      split_ifs with hd
      · exact hnoends r (hout r hr)
      · rw [addGaps_other, hnoends r (hout r hr)]
        intro pre a b c post he hb
        apply hr
        rw [← hperm.mem_iff, hinner he, ← hb]
        simp
    · intro r hr he
      split_ifs with hd
      · exact hends r he
      · rw [addGaps_other, hends r he]
        intro pre a b c post hs hb
        subst hb
        have := not_inner_head hnl (hinner hs)
        exact he.elim this.1 this.2
    · intro r hr he
      rw [AtEnd, not_or] at he
      obtain ⟨pre, a, c, post, hs⟩ := split_inner (hperm.mem_iff.2 hr) he.1 he.2
      have hr1 := hnoends r (by rw [AtEnd, not_or]; exact he)
      split_ifs with hd
      · refine ⟨0, ⟨pre, a, c, post, _, _, hs, hlo, hhi, .inl ⟨?_, rfl⟩⟩, ?_⟩
        · rw [← hk2, ← hl2]; linarith
        · rw [hr1]
          have : (h r).crowding.add 0 = (h r).crowding := by cases (h r).crowding <;> simp [Crowd.add]
          rw [this]
      · -- the listing of the pairs is split in the same way
        obtain ⟨pre', a', b', c', post', hs', hb, ha, hc⟩ : ∃ pre' a' b' c' post',
            k :: rest = pre' ++ a' :: b' :: c' :: post' ∧ b'.1 = r ∧ a'.1 = a ∧ c'.1 = c := by
          rw [hl] at hs
          obtain ⟨p1, p2, h1, h2, h3⟩ := List.map_eq_append_iff.1 hs
          obtain ⟨a', t1, h4, h5, h6⟩ := List.map_eq_cons_iff.1 h3
          obtain ⟨b', t2, h7, h8, h9⟩ := List.map_eq_cons_iff.1 h6
          obtain ⟨c', t3, h10, h11, h12⟩ := List.map_eq_cons_iff.1 h9
          exact ⟨p1, a', b', c', t3, by rw [h1, h4, h7, h10], h8, h5, h11⟩
        refine ⟨(val vec j c - val vec j a) / (val vec j last.1 - val vec j k.1),
          ⟨pre, a, c, post, _, _, hs, hlo, hhi, .inr ⟨?_, rfl⟩⟩, ?_⟩
        · rw [← hk2, ← hl2]; intro he; exact hd (by linarith)
        · have := addGaps_inner (last.2 - k.2) (k :: rest) h1 hnl hs'
          rw [hb] at this
          rw [this, hr1, hval a' (by rw [hs']; simp), hval c' (by rw [hs']; simp), ha, hc, hk2, hl2]

/-- The crowding distances of a front, for the objectives `js`: an individual at an end of one of the listings
of the front has an infinite distance, any other one the sum of its gaps. -/
def CrowdedBy (vec : Nat → List ℚ) (js : List Nat) (front : List Nat) (start crowd : Nat → Crowd) : Prop :=
  ∃ L : Nat → List Nat, (∀ j ∈ js, Lists vec j front (L j)) ∧ ∀ r ∈ front,
    ((∃ j ∈ js, AtEnd (L j) r) → crowd r = .inf) ∧
    ((∀ j ∈ js, ¬ AtEnd (L j) r) → ∃ g : Nat → ℚ, (∀ j ∈ js, IsGap vec j (L j) r (g j)) ∧
      crowd r = (start r).add (js.map g).sum)

theorem crowdObjs_spec {vec : Nat → List ℚ} (js : List Nat) {h : Heap} {front : List Nat} (hjs : js.Nodup)
    (hne : front ≠ []) (hn : front.Nodup) (hv : ∀ r ∈ front, (h r).objs = some (vec r))
    (hj : ∀ j ∈ js, ∀ r ∈ front, j < (vec r).length) :
    ∃ h' l, crowdObjs h front js = .ok (h', l) ∧ l.Perm front ∧ (∀ r, r ∉ front → h' r = h r) ∧
      (∀ r ∈ front, ∃ c, h' r = { h r with crowding := c } ∧ ((h r).crowding = .inf → c = .inf)) ∧
      CrowdedBy vec js front (fun r => (h r).crowding) (fun r => (h' r).crowding) := by
  induction js generalizing h front with
  | nil =>
    refine ⟨h, front, rfl, .refl _, fun _ _ => rfl, fun r _ => ⟨_, rfl, id⟩, fun _ => [], by simp, ?_⟩
    intro r _
    refine ⟨by simp, fun _ => ⟨fun _ => 0, by simp, ?_⟩⟩
    exact (Crowd.add_zero' _).symm
  | cons j js ih =>
    obtain ⟨hjn, hjs'⟩ := List.nodup_cons.1 hjs
    obtain ⟨h1, l1, he, hl, hout, hend, hgap⟩ := crowdObj_spec hne hn hv (hj j (by simp))
    have hmem : ∀ {r}, r ∈ l1 ↔ r ∈ front := hl.1.mem_iff
    have hsame : ∀ r ∈ front, ∃ c, h1 r = { h r with crowding := c } ∧ ((h r).crowding = .inf → c = .inf) := by
      intro r hr
      by_cases ha : AtEnd l1 r
      · exact ⟨_, hend r hr ha, fun _ => rfl⟩
      · obtain ⟨g, -, h2⟩ := hgap r hr ha
        exact ⟨_, h2, fun h3 => by rw [h3]; rfl⟩
    have hne1 : l1 ≠ [] := fun h => hne (by have := hl.1.length_eq; rw [h] at this; exact List.length_eq_zero_iff.1 this.symm)
    obtain ⟨h2, l2, he2, hl2, hout2, hsame2, L, hL, hcr⟩ := ih (h := h1) (front := l1) hjs' hne1
      (hl.1.nodup_iff.2 hn) (fun r hr => by
        obtain ⟨c, hc, -⟩ := hsame r (hmem.1 hr)
        rw [hc]; exact hv r (hmem.1 hr))
      (fun j' hj' r hr => hj j' (by simp [hj']) r (hmem.1 hr))
    refine ⟨h2, l2, by rw [crowdObjs, he]; exact he2, hl2.trans hl.1, ?_, ?_, fun i => if i = j then l1 else L i,
      ?_, ?_⟩
    · intro r hr
      rw [hout2 r (fun hm => hr (hmem.1 hm)), hout r hr]
    · intro r hr
      obtain ⟨c, hc, hi⟩ := hsame r hr
      obtain ⟨c', hc', hi'⟩ := hsame2 r (hmem.2 hr)
      exact ⟨c', by rw [hc', hc], fun h3 => hi' (by rw [hc]; exact hi h3)⟩
    · intro i hi
      by_cases hij : i = j
      · subst hij; simpa using hl
      · simp only [List.mem_cons, hij, false_or] at hi
        have := hL i hi
        simp only [if_neg hij]
        exact ⟨this.1.trans hl.1, this.2⟩
    · intro r hr
      obtain ⟨hc1, hc2⟩ := hcr r (hmem.2 hr)
      obtain ⟨c', hc', hi'⟩ := hsame2 r (hmem.2 hr)
      have hneq : ∀ i ∈ js, i ≠ j := fun i hi h => hjn (h ▸ hi)
      constructor
      · rintro ⟨i, hi, ha⟩
        by_cases hij : i = j
        · subst hij
          dsimp only at ha
          rw [if_pos rfl] at ha
          dsimp only
          rw [hc']
          exact hi' (by rw [hend r hr ha])
        · simp only [List.mem_cons, hij, false_or] at hi
          dsimp only at ha
          rw [if_neg hij] at ha
          exact hc1 ⟨i, hi, ha⟩
      · intro hno
        have hnj := hno j (by simp)
        dsimp only at hnj
        rw [if_pos rfl] at hnj
        obtain ⟨g, hg, hrg⟩ := hgap r hr hnj
        obtain ⟨g', hg', hsum⟩ := hc2 fun i hi => by
          have := hno i (by simp [hi])
          dsimp only at this
          rwa [if_neg (hneq i hi)] at this
        refine ⟨fun i => if i = j then g else g' i, ?_, ?_⟩
        · intro i hi
          by_cases hij : i = j
          · subst hij; simpa using hg
          · simp only [List.mem_cons, hij, false_or] at hi
            simp only [if_neg hij]
            exact hg' i hi
        · rw [hsum]
          dsimp only
          rw [hrg]
          have : js.map (fun i => if i = j then g else g' i) = js.map g' :=
            List.map_congr_left fun i hi => if_neg (hneq i hi)
          rw [List.map_cons, if_pos rfl, this, List.sum_cons]
          exact Crowd.add_add _ _ _

/-- The crowding distances of a front with `m` objectives. -/
def Crowded (vec : Nat → List ℚ) (m : Nat) (front : List Nat) (crowd : Nat → Crowd) : Prop :=
  ∃ L : Nat → List Nat, (∀ j < m, Lists vec j front (L j)) ∧ ∀ r ∈ front,
    ((∃ j < m, AtEnd (L j) r) → crowd r = .inf) ∧
    ((∀ j < m, ¬ AtEnd (L j) r) → ∃ g : Nat → ℚ, (∀ j < m, IsGap vec j (L j) r (g j)) ∧
      crowd r = .fin ((List.range m).map g).sum)

theorem calcCrowding_spec {h : Heap} {vec : Nat → List ℚ} {m : Nat} {front : List Nat} (hne : front ≠ [])
    (hn : front.Nodup) (hv : ∀ r ∈ front, (h r).objs = some (vec r)) (hm : ∀ r ∈ front, (vec r).length = m) :
    ∃ h' l, calcCrowding h front = .ok (h', l) ∧ l.Perm front ∧ (∀ r, r ∉ front → h' r = h r) ∧
      (∀ r ∈ front, ∃ c, h' r = { h r with crowding := c }) ∧ Crowded vec m front (fun r => (h' r).crowding) := by
  obtain ⟨x, xs, hx⟩ := List.exists_cons_of_ne_nil hne
  set h0 := h.setAll (fun f => { f with crowding := .fin 0 }) front with hh0
  have hin : ∀ r ∈ front, h0 r = { h r with crowding := .fin 0 } := fun r hr => setAll_mem h (f := fun f => { f with crowding := .fin 0 }) (fun _ => rfl) hr
  obtain ⟨h', l, he, hl, hout, hsame, L, hL, hcr⟩ := crowdObjs_spec (List.range m) (h := h0) List.nodup_range hne hn
    (fun r hr => by rw [hin r hr]; exact hv r hr) (fun j hj r hr => by rw [hm r hr]; simpa using hj)
  have hxm : x ∈ front := by rw [hx]; simp
  refine ⟨h', l, ?_, hl, fun r hr => by rw [hout r hr]; exact setAll_other h _ hr, ?_, L, by simpa using hL, ?_⟩
  · unfold calcCrowding
    subst hx
    dsimp only
    have hp : (h0 x).pure = .ok (vec x) := by unfold Fit.pure; rw [hin x hxm]; simp only [hv x hxm]
    rw [← hh0, hp]
    simp only
    rw [hm x hxm]
    exact he
  · intro r hr
    obtain ⟨c, hc, -⟩ := hsame r hr
    exact ⟨c, by rw [hc, hin r hr]⟩
  · intro r hr
    obtain ⟨h1, h2⟩ := hcr r hr
    refine ⟨by simpa using h1, fun h3 => ?_⟩
    obtain ⟨g, hg, hs⟩ := h2 (by simpa using h3)
    refine ⟨g, by simpa using hg, ?_⟩
    rw [hs]
    dsimp only
    rw [hin r hr]
    simp [Crowd.add]

end Verif.Moo
