import Verif.Proofs.Pipes

/-!
# Pipe flows are made of routes
-/

namespace BNS

set_option linter.unusedSectionVars false

section
variable {E K : Type} [DecidableEq E] [DecidableEq K] {S : PipeSys E K} {compOf : E → K}
variable {vs : List (K × ℕ)}

/-- One unit on one arc. -/
def unitOn (e : E) : E → ℕ := fun a => if a = e then 1 else 0

theorem sum_filter_add (L : List (E × K × K)) (f g : E → ℕ) :
    (L.map fun ep => f ep.1 + g ep.1).sum = (L.map fun ep => f ep.1).sum + (L.map fun ep => g ep.1).sum := by
  induction L with
  | nil => rfl
  | cons a L ih => simp only [List.map_cons, List.sum_cons, ih]; omega

theorem sum_unit {L : List (E × K × K)} (hn : (L.map Prod.fst).Nodup) {ep : E × K × K} (h : ep ∈ L)
    (p : E × K × K → Prop) [DecidablePred p] :
    ((L.filter fun a => decide (p a)).map fun a => unitOn ep.1 a.1).sum = if p ep then 1 else 0 := by
  induction L with
  | nil => cases h
  | cons a L ih =>
    rw [List.map_cons, List.nodup_cons] at hn
    by_cases ha : ep = a
    · subst ha
      have h0 : ((L.filter fun a => decide (p a)).map fun a => unitOn ep.1 a.1).sum = 0 := by
        rw [List.sum_eq_zero]
        intro n hn'
        obtain ⟨b, hb, rfl⟩ := List.mem_map.1 hn'
        have hb := (List.mem_filter.1 hb).1
        unfold unitOn
        rw [if_neg]
        intro hh
        exact hn.1 (hh ▸ List.mem_map_of_mem hb)
      rw [List.filter_cons]
      by_cases hp : p ep
      · simp only [hp, decide_true, if_true, List.map_cons, List.sum_cons, h0]
        simp [unitOn]
      · simp only [hp, decide_false, if_false, Bool.false_eq_true, h0]
    · have hL : ep ∈ L := by
        rcases List.mem_cons.1 h with h' | h'
        exacts [absurd h' ha, h']
      have hne : a.1 ≠ ep.1 := fun hh => hn.1 (hh ▸ List.mem_map_of_mem hL)
      rw [List.filter_cons]
      by_cases hp : p a
      · simp only [hp, decide_true, if_true, List.map_cons, List.sum_cons, ih hn.2 hL]
        simp [unitOn, hne]
      · simp only [hp, decide_false, if_false, Bool.false_eq_true]
        exact ih hn.2 hL

theorem out_add (L : List (E × K × K)) (f g : E → ℕ) (n : K) :
    outOver L (fun a => f a + g a) n = outOver L f n + outOver L g n := sum_filter_add _ f g

theorem in_add (L : List (E × K × K)) (f g : E → ℕ) (n : K) :
    inOver L (fun a => f a + g a) n = inOver L f n + inOver L g n := sum_filter_add _ f g

theorem out_unit (hn : (S.edges.map Prod.fst).Nodup) {e : E} {v w : K} (h : (e, v, w) ∈ S.edges) (n : K) :
    outOver S.edges (unitOn e) n = if v = n then 1 else 0 :=
  sum_unit hn h fun ep => ep.2.1 = n

theorem in_unit (hn : (S.edges.map Prod.fst).Nodup) {e : E} {v w : K} (h : (e, v, w) ∈ S.edges) (n : K) :
    inOver S.edges (unitOn e) n = if w = n then 1 else 0 :=
  sum_unit hn h fun ep => ep.2.2 = n

theorem out_sub_unit (hn : (S.edges.map Prod.fst).Nodup) {e : E} {v w : K} (h : (e, v, w) ∈ S.edges) (m : ℕ)
    (n : K) : outOver (S.sub m) (unitOn e) n = if e ∈ S.subEdges.getD m [] ∧ v = n then 1 else 0 := by
  rw [← sum_unit hn h fun ep => ep.1 ∈ S.subEdges.getD m [] ∧ ep.2.1 = n]
  unfold outOver PipeSys.sub
  rw [List.filter_filter]
  congr 3
  funext ep
  rw [Bool.decide_and, Bool.and_comm]

theorem in_sub_unit (hn : (S.edges.map Prod.fst).Nodup) {e : E} {v w : K} (h : (e, v, w) ∈ S.edges) (m : ℕ)
    (n : K) : inOver (S.sub m) (unitOn e) n = if e ∈ S.subEdges.getD m [] ∧ w = n then 1 else 0 := by
  rw [← sum_unit hn h fun ep => ep.1 ∈ S.subEdges.getD m [] ∧ ep.2.2 = n]
  unfold inOver PipeSys.sub
  rw [List.filter_filter]
  congr 3
  funext ep
  rw [Bool.decide_and, Bool.and_comm]

/-- What the depots behind subsystem `m` receive. -/
def received (S : PipeSys E K) (f : E → ℕ) (m : ℕ) : ℕ :=
  (((S.sub m).filter fun ep => decide (ep.2.2 ∈ S.depot (m + 1))).map fun ep => f ep.1).sum

theorem received_add (f g : E → ℕ) (m : ℕ) :
    received S (fun a => f a + g a) m = received S f m + received S g m := sum_filter_add _ f g

theorem received_unit (hn : (S.edges.map Prod.fst).Nodup) {e : E} {v w : K} (h : (e, v, w) ∈ S.edges) (m : ℕ) :
    received S (unitOn e) m = if e ∈ S.subEdges.getD m [] ∧ w ∈ S.depot (m + 1) then 1 else 0 := by
  rw [← sum_unit hn h fun ep => ep.1 ∈ S.subEdges.getD m [] ∧ ep.2.2 ∈ S.depot (m + 1)]
  unfold received PipeSys.sub
  rw [List.filter_filter]
  congr 3
  funext ep
  rw [Bool.decide_and, Bool.and_comm]

/-- Flow conservation, but for one unit that starts at node `c.2` in subsystem `c.1`. -/
structure Bal (S : PipeSys E K) (f : E → ℕ) (c : ℕ × K → Prop) [DecidablePred c] : Prop where
  through : ∀ m n, m < S.subNodes.length → n ∉ S.depot m → n ∉ S.depot (m + 1) →
    outOver (S.sub m) f n = inOver (S.sub m) f n + if c (m, n) then 1 else 0
  stop : ∀ m n, m < S.subNodes.length → n ∈ S.depot m →
    (m = 0 ∨ outOver S.edges f n = inOver S.edges f n + if c (m, n) then 1 else 0)

/-- How one unit on an arc moves the start of the unit. -/
theorem unit_through (h : PipesOK S compOf vs) (hP : PhasesOK S) {m : ℕ} {e : E} {v w : K}
    (hm : m < S.subNodes.length) (he : (e, v, w) ∈ S.edges) (hes : e ∈ S.subEdges.getD m [])
    {m' : ℕ} {n : K} (hm' : m' < S.subNodes.length) :
    outOver (S.sub m') (unitOn e) n = (if (m', n) = (m, v) then 1 else 0) ∧
    inOver (S.sub m') (unitOn e) n = (if (m', n) = (m, w) then 1 else 0) := by
  rw [out_sub_unit h.nodup he, in_sub_unit h.nodup he]
  have key : ∀ z : K, (e ∈ S.subEdges.getD m' [] ∧ z = n) ↔ (m', n) = (m, z) := by
    intro z
    rw [Prod.mk.injEq]
    exact ⟨fun hh => ⟨hP.one e m' m hm' hm hh.1 hes, hh.2.symm⟩, fun hh => ⟨hh.1 ▸ hes, hh.2.symm⟩⟩
  simp only [key]
  exact ⟨trivial, trivial⟩

theorem unit_stop (h : PipesOK S compOf vs) (hP : PhasesOK S) {m : ℕ} {e : E} {v w : K}
    (hm : m < S.subNodes.length) (he : (e, v, w) ∈ S.edges) (hes : e ∈ S.subEdges.getD m [])
    {m' : ℕ} {n : K} (hm' : m' < S.subNodes.length) (hn : n ∈ S.depot m') :
    outOver S.edges (unitOn e) n = (if (m', n) = (m, v) then 1 else 0) ∧
    inOver S.edges (unitOn e) n = (if (m', n) = (m + 1, w) then 1 else 0) := by
  rw [out_unit h.nodup he, in_unit h.nodup he]
  have hl : m' < S.depots.length := by rw [h.depots]; omega
  have k1 : v = n ↔ (m', n) = (m, v) := by
    rw [Prod.mk.injEq]
    refine ⟨fun hh => ⟨hP.src _ he m hm hes m' hl (by rw [hh]; exact hn), hh.symm⟩, fun hh => hh.2.symm⟩
  have k2 : w = n ↔ (m', n) = (m + 1, w) := by
    rw [Prod.mk.injEq]
    refine ⟨fun hh => ⟨hP.dst _ he m hm hes m' hl (by rw [hh]; exact hn), hh.symm⟩, fun hh => hh.2.symm⟩
  constructor
  · simp only [k1]
  · simp only [k2]

/-- Where a unit is after the arc. -/
def after (S : PipeSys E K) (m : ℕ) (w : K) : ℕ × K := if w ∈ S.depot (m + 1) then (m + 1, w) else (m, w)

theorem after_through {m : ℕ} {w : K} {m' : ℕ} {n : K}
    (h1 : n ∉ S.depot m') (h2 : n ∉ S.depot (m' + 1)) :
    (if (m', n) = (m, w) then 1 else 0) = if (m', n) = after S m w then 1 else 0 := by
  unfold after
  by_cases hw : w ∈ S.depot (m + 1)
  · rw [if_pos hw, if_neg, if_neg]
    · rw [Prod.mk.injEq]; rintro ⟨rfl, rfl⟩; exact h1 hw
    · rw [Prod.mk.injEq]; rintro ⟨rfl, rfl⟩; exact h2 hw
  · rw [if_neg hw]

theorem after_stop (h : PipesOK S compOf vs) (hP : PhasesOK S) {m : ℕ} {e : E} {v w : K}
    (hm : m < S.subNodes.length) (he : (e, v, w) ∈ S.edges) (hes : e ∈ S.subEdges.getD m [])
    {m' : ℕ} {n : K} (hm' : m' < S.subNodes.length) (hn : n ∈ S.depot m') :
    (if (m', n) = (m + 1, w) then 1 else 0) = if (m', n) = after S m w then 1 else 0 := by
  unfold after
  by_cases hw : w ∈ S.depot (m + 1)
  · rw [if_pos hw]
  · have hl : m' < S.depots.length := by rw [h.depots]; omega
    rw [if_neg hw, if_neg, if_neg]
    · rw [Prod.mk.injEq]
      rintro ⟨rfl, rfl⟩
      have := hP.dst _ he m' hm hes m' hl hn
      omega
    · rw [Prod.mk.injEq]; rintro ⟨rfl, rfl⟩; exact hw hn

/-- A unit that runs over an arc. -/
theorem Bal.step (h : PipesOK S compOf vs) (hP : PhasesOK S) {m : ℕ} {e : E} {v w : K}
    (hm : m < S.subNodes.length) (he : (e, v, w) ∈ S.edges) (hes : e ∈ S.subEdges.getD m [])
    {f : E → ℕ} : Bal S (fun a => f a + unitOn e a) (fun c => c = (m, v)) ↔
      Bal S f (fun c => c = after S m w) := by
  constructor
  · intro hb
    constructor
    · intro m' n hm' h1 h2
      have := hb.through m' n hm' h1 h2
      rw [out_add, in_add, (unit_through h hP hm he hes hm').1, (unit_through h hP hm he hes hm').2,
        after_through (w := w) h1 h2] at this
      omega
    · intro m' n hm' hn
      refine (hb.stop m' n hm' hn).imp id fun this => ?_
      rw [out_add, in_add, (unit_stop h hP hm he hes hm' hn).1, (unit_stop h hP hm he hes hm' hn).2,
        after_stop h hP hm he hes hm' hn] at this
      omega
  · intro hb
    constructor
    · intro m' n hm' h1 h2
      have := hb.through m' n hm' h1 h2
      rw [out_add, in_add, (unit_through h hP hm he hes hm').1, (unit_through h hP hm he hes hm').2,
        after_through (w := w) h1 h2]
      omega
    · intro m' n hm' hn
      refine (hb.stop m' n hm' hn).imp id fun this => ?_
      rw [out_add, in_add, (unit_stop h hP hm he hes hm' hn).1, (unit_stop h hP hm he hes hm' hn).2,
        after_stop h hP hm he hes hm' hn]
      omega

/-- A start behind the last subsystem is no start. -/
theorem Bal.end_iff {f : E → ℕ} {m : ℕ} {w : K} (hm : S.subNodes.length ≤ m) :
    Bal S f (fun c => c = (m, w)) ↔ Bal S f fun _ => False := by
  have key : ∀ m' (n : K), m' < S.subNodes.length → ¬ ((m', n) = (m, w)) := by
    intro m' n hm' hh
    rw [Prod.mk.injEq] at hh
    omega
  constructor
  · intro hb
    refine ⟨fun m' n hm' h1 h2 => ?_, fun m' n hm' hn => ?_⟩
    · rw [hb.through m' n hm' h1 h2, if_neg (key m' n hm')]; simp
    · refine (hb.stop m' n hm' hn).imp id fun this => ?_
      rw [this, if_neg (key m' n hm')]; simp
  · intro hb
    refine ⟨fun m' n hm' h1 h2 => ?_, fun m' n hm' hn => ?_⟩
    · rw [hb.through m' n hm' h1 h2, if_neg (key m' n hm')]; simp
    · refine (hb.stop m' n hm' hn).imp id fun this => ?_
      rw [this, if_neg (key m' n hm')]; simp

/-- A start at an origin is not seen. -/
theorem Bal.origin_iff {f : E → ℕ} {o : K} (ho : o ∈ S.depot 0) :
    Bal S f (fun c => c = (0, o)) ↔ Bal S f fun _ => False := by
  have key : ∀ m' (n : K), (n ∉ S.depot m' ∨ m' ≠ 0) → ¬ ((m', n) = (0, o)) := by
    intro m' n hh h'
    rw [Prod.mk.injEq] at h'
    obtain ⟨rfl, rfl⟩ := h'
    rcases hh with hh | hh
    exacts [hh ho, hh rfl]
  constructor
  · intro hb
    refine ⟨fun m' n hm' h1 h2 => ?_, fun m' n hm' hn => ?_⟩
    · rw [hb.through m' n hm' h1 h2, if_neg (key m' n (.inl h1))]; simp
    · by_cases h0 : m' = 0
      · exact .inl h0
      · refine (hb.stop m' n hm' hn).imp id fun this => ?_
        rw [this, if_neg (key m' n (.inr h0))]; simp
  · intro hb
    refine ⟨fun m' n hm' h1 h2 => ?_, fun m' n hm' hn => ?_⟩
    · rw [hb.through m' n hm' h1 h2, if_neg (key m' n (.inl h1))]; simp
    · by_cases h0 : m' = 0
      · exact .inl h0
      · refine (hb.stop m' n hm' hn).imp id fun this => ?_
        rw [this, if_neg (key m' n (.inr h0))]; simp

theorem count_cons_fun (e : E) (p : List E) :
    (fun a => (e :: p).count a) = fun a => p.count a + unitOn e a := by
  funext a
  rw [List.count_cons, unitOn]
  by_cases h : a = e
  · simp [h]
  · have : e ≠ a := Ne.symm h
    simp [h, this]

theorem bal_zero : Bal S (fun _ => 0) fun _ => False := by
  refine ⟨fun m' n _ _ _ => ?_, fun m' n _ _ => .inr ?_⟩ <;> simp [outOver, inOver]

/-! ### A route is a flow of one unit -/

theorem PipeRoute.le {m : ℕ} {v : K} {p : List E} (hr : PipeRoute S m v p) : m ≤ S.subNodes.length := by
  cases hr with
  | done h _ => exact h.le
  | go h => exact h.le
  | stop h => exact h.le

theorem PipeRoute.bal (h : PipesOK S compOf vs) (hP : PhasesOK S) {m : ℕ} {v : K} {p : List E}
    (hr : PipeRoute S m v p) : Bal S (fun a => p.count a) (fun c => c = (m, v)) := by
  induction hr with
  | done hm _ =>
    rw [Bal.end_iff hm.ge]
    simpa using bal_zero
  | @go m e v w p hm he hes hw hr ih =>
    rw [count_cons_fun, Bal.step h hP hm he hes, after, if_neg hw]
    exact ih
  | @stop m e v w p hm he hes hw hr ih =>
    rw [count_cons_fun, Bal.step h hP hm he hes, after, if_pos hw]
    exact ih

theorem PipeRoute.received (h : PipesOK S compOf vs) (hP : PhasesOK S) {m : ℕ} {v : K} {p : List E}
    (hr : PipeRoute S m v p) {m' : ℕ} (hm' : m' < S.subNodes.length) :
    received S (fun a => p.count a) m' = if m ≤ m' then 1 else 0 := by
  induction hr with
  | done hm _ => rw [if_neg (by omega)]; simp [BNS.received]
  | @go m e v w p hm he hes hw hr ih =>
    rw [count_cons_fun, received_add, ih, received_unit h.nodup he]
    have : ¬ (e ∈ S.subEdges.getD m' [] ∧ w ∈ S.depot (m' + 1)) := by
      rintro ⟨h1, h2⟩
      rw [hP.one e m' m hm' hm h1 hes] at h2
      exact hw h2
    rw [if_neg this, Nat.add_zero]
  | @stop m e v w p hm he hes hw hr ih =>
    rw [count_cons_fun, received_add, ih, received_unit h.nodup he]
    by_cases hmm : m = m'
    · subst hmm
      rw [if_neg (by omega), if_pos ⟨hes, hw⟩, if_pos (le_refl _)]
    · have : ¬ (e ∈ S.subEdges.getD m' [] ∧ w ∈ S.depot (m' + 1)) := fun hh =>
        hmm (hP.one e m m' hm hm' hes hh.1)
      rw [if_neg this]
      by_cases hle : m ≤ m'
      · rw [if_pos hle, if_pos (by omega)]
      · rw [if_neg hle, if_neg (by omega)]

/-- Only the start of a route leaves an origin. -/
theorem PipeRoute.out (h : PipesOK S compOf vs) (hP : PhasesOK S) {m : ℕ} {v : K} {p : List E}
    (hr : PipeRoute S m v p) {n : K} (hn : n ∈ S.depot 0) :
    outOver S.edges (fun a => p.count a) n = if n = v ∧ m = 0 then 1 else 0 := by
  have hstep : ∀ {m : ℕ} {e : E} {v w : K} {p : List E}, m < S.subNodes.length → (e, v, w) ∈ S.edges →
      e ∈ S.subEdges.getD m [] → outOver S.edges (fun a => (e :: p).count a) n =
        outOver S.edges (fun a => p.count a) n + if n = v ∧ m = 0 then 1 else 0 := by
    intro m e v w p hm he hes
    rw [count_cons_fun, out_add, out_unit h.nodup he]
    have : v = n ↔ n = v ∧ m = 0 := ⟨fun hh => ⟨hh.symm, (hP.src _ he m hm hes 0
      (by rw [h.depots]; omega) (by rw [hh]; exact hn)).symm⟩, fun hh => hh.1.symm⟩
    simp only [this]
  induction hr with
  | done hm _ =>
    have := hP.pos
    rw [if_neg (by omega)]
    simp [outOver]
  | @go m e v w p hm he hes hw hr ih =>
    rw [hstep hm he hes, ih]
    have : ¬ (n = w ∧ m = 0) := by
      rintro ⟨rfl, rfl⟩
      have := hP.dst _ he 0 hm hes 0 (by rw [h.depots]; omega) hn
      omega
    rw [if_neg this, Nat.zero_add]
  | @stop m e v w p hm he hes hw hr ih =>
    rw [hstep hm he hes, ih, if_neg (by omega), Nat.zero_add]

theorem sum_indicator {l : List K} (hn : l.Nodup) {o : K} (ho : o ∈ l) :
    (l.map fun n => if n = o then 1 else 0).sum = 1 := by
  induction l with
  | nil => cases ho
  | cons a l ih =>
    rw [List.nodup_cons] at hn
    rw [List.map_cons, List.sum_cons]
    by_cases ha : a = o
    · subst ha
      have : (l.map fun n => if n = a then 1 else 0).sum = 0 := by
        rw [List.sum_eq_zero]
        intro k hk
        obtain ⟨b, hb, rfl⟩ := List.mem_map.1 hk
        rw [if_neg]
        rintro rfl
        exact hn.1 hb
      rw [this]; simp
    · rcases List.mem_cons.1 ho with h | h
      · exact absurd h.symm ha
      · rw [ih hn.2 h]; simp [ha]

/-- The supply of the origins. -/
def supplied (S : PipeSys E K) (f : E → ℕ) : ℕ := ((S.depot 0).map fun o => outOver S.edges f o).sum

theorem supplied_add (f g : E → ℕ) :
    supplied S (fun a => f a + g a) = supplied S f + supplied S g := by
  unfold supplied
  generalize S.depot 0 = l
  induction l with
  | nil => rfl
  | cons a l ih =>
    rw [List.map_cons, List.sum_cons, ih]
    simp only [List.map_cons, List.sum_cons, out_add]
    omega

theorem PipeRoute.supplied (h : PipesOK S compOf vs) (hP : PhasesOK S) {o : K} (ho : o ∈ S.depot 0)
    {p : List E} (hr : PipeRoute S 0 o p) : supplied S (fun a => p.count a) = 1 := by
  unfold BNS.supplied
  rw [← sum_indicator h.origins ho]
  congr 1
  refine List.map_congr_left fun n hn => ?_
  rw [hr.out h hP hn]
  simp

theorem Bal.add {f g : E → ℕ} (hf : Bal S f fun _ => False) (hg : Bal S g fun _ => False) :
    Bal S (fun a => f a + g a) fun _ => False := by
  refine ⟨fun m n hm h1 h2 => ?_, fun m n hm hn => ?_⟩
  · have e1 := hf.through m n hm h1 h2
    have e2 := hg.through m n hm h1 h2
    rw [out_add, in_add]
    simp only [if_false] at e1 e2 ⊢
    omega
  · rcases hf.stop m n hm hn with e1 | e1
    · exact .inl e1
    · refine (hg.stop m n hm hn).imp id fun e2 => ?_
      rw [out_add, in_add]
      simp only [if_false] at e1 e2 ⊢
      omega

/-- Balanced flows are pipe flows if the depots receive what the origins supply. -/
theorem Bal.flow {f : E → ℕ} (hb : Bal S f fun _ => False) {cap : E × K × K → ℚ}
    (hcap : ∀ ep ∈ S.edges, (f ep.1 : ℚ) ≤ cap ep)
    (hrec : ∀ m < S.subNodes.length, received S f m = supplied S f) :
    PipeFlow S cap f fun o => outOver S.edges f o where
  cap := hcap
  supply := fun _ _ => rfl
  through := fun m n hn h1 h2 => by
    have hm : m < S.subNodes.length := by
      by_contra hm
      simp [List.getElem?_eq_none (not_lt.1 hm)] at hn
    simpa using hb.through m n hm h1 h2
  arrive := hrec
  stop := fun m h1 hm n hn => by
    rcases hb.stop m n hm hn with h0 | h0
    · omega
    · simpa using h0

theorem PipeFlow.bal (hP : PhasesOK S) {cap : E × K × K → ℚ} {f : E → ℕ} {u : K → ℕ}
    (hf : PipeFlow S cap f u) : Bal S f fun _ => False := by
  refine ⟨fun m n hm h1 h2 => ?_, fun m n hm hn => ?_⟩
  · rw [if_neg (fun h => h), Nat.add_zero]
    by_cases hmem : n ∈ S.subNodes.getD m []
    · exact hf.through m n hmem h1 h2
    · have e1 : outOver (S.sub m) f n = 0 := by
        unfold outOver
        rw [List.filter_eq_nil_iff.2]
        · rfl
        · intro ep hep
          obtain ⟨hep, hes⟩ := List.mem_filter.1 hep
          have := (hP.inside ep hep m hm (by simpa using hes)).1
          simp only [decide_eq_true_eq]
          rintro rfl
          exact hmem this
      have e2 : inOver (S.sub m) f n = 0 := by
        unfold inOver
        rw [List.filter_eq_nil_iff.2]
        · rfl
        · intro ep hep
          obtain ⟨hep, hes⟩ := List.mem_filter.1 hep
          have := (hP.inside ep hep m hm (by simpa using hes)).2
          simp only [decide_eq_true_eq]
          rintro rfl
          exact hmem this
      rw [e1, e2]
  · by_cases h0 : m = 0
    · exact .inl h0
    · refine .inr ?_
      rw [if_neg (fun h => h), Nat.add_zero]
      exact hf.stop m (by omega) hm n hn

/-! ### A flow contains a route -/

theorem exists_pos {L : List (E × K × K)} {p : E × K × K → Bool} {f : E → ℕ}
    (h : 0 < ((L.filter p).map fun ep => f ep.1).sum) : ∃ ep ∈ L, p ep = true ∧ 0 < f ep.1 := by
  by_contra hc
  push Not at hc
  have : ((L.filter p).map fun ep => f ep.1).sum = 0 := by
    rw [List.sum_eq_zero]
    intro n hn
    obtain ⟨ep, hep, rfl⟩ := List.mem_map.1 hn
    obtain ⟨h1, h2⟩ := List.mem_filter.1 hep
    have := hc ep h1 h2
    omega
  omega

theorem split_unit {f : E → ℕ} {e : E} (he : 0 < f e) :
    ∃ g : E → ℕ, f = fun a => g a + unitOn e a := by
  refine ⟨fun a => f a - unitOn e a, ?_⟩
  funext a
  unfold unitOn
  by_cases h : a = e
  · subst h; simp; omega
  · simp [h]

theorem strip (h : PipesOK S compOf vs) (hP : PhasesOK S) : ∀ (N : ℕ) (f : E → ℕ),
    (S.edges.map fun ep => f ep.1).sum = N → ∀ (m : ℕ) (v : K), m < S.subNodes.length →
    Bal S f (fun c => c = (m, v)) →
    (∃ w e, (e, v, w) ∈ S.edges ∧ e ∈ S.subEdges.getD m [] ∧ 0 < f e) →
    ∃ p g, PipeRoute S m v p ∧ (f = fun a => g a + p.count a) ∧ Bal S g fun _ => False := by
  intro N
  induction N using Nat.strong_induction_on with
  | _ N ih =>
    intro f hN m v hm hb hpos
    obtain ⟨w, e, he, hes, hf⟩ := hpos
    obtain ⟨g, rfl⟩ := split_unit hf
    have hb' := (Bal.step h hP hm he hes).1 hb
    have hlt : (S.edges.map fun ep => g ep.1).sum < N := by
      rw [← hN, sum_filter_add]
      have := sum_unit h.nodup he fun _ => True
      simp only [decide_true, List.filter_true, if_true] at this
      rw [this]
      omega
    have hcons : ∀ (p : List E) (g' : E → ℕ), (g = fun a => g' a + p.count a) →
        (fun a => g a + unitOn e a) = fun a => g' a + (e :: p).count a := by
      intro p g' hg
      have := count_cons_fun e p
      funext a
      have ha := congrFun this a
      rw [hg, ha]
      show _ + _ + _ = _ + (_ + _)
      omega
    by_cases hw : w ∈ S.depot (m + 1)
    · rw [after, if_pos hw] at hb'
      by_cases hlast : m + 1 = S.subNodes.length
      · refine ⟨[e], g, .stop hm he hes hw (.done hlast hw), ?_, (Bal.end_iff hlast.ge).1 hb'⟩
        exact hcons [] g (by simp)
      · have hm1 : m + 1 < S.subNodes.length := by omega
        have hout : outOver S.edges g w = inOver S.edges g w + 1 := by
          rcases hb'.stop (m + 1) w hm1 hw with h0 | h0
          · omega
          · simpa using h0
        obtain ⟨ep, hep, hs, hg⟩ := exists_pos (show 0 < outOver S.edges g w by omega)
        have hs : ep.2.1 = w := by simpa using hs
        obtain ⟨m2, hm2, hes2⟩ := hP.ex ep hep
        have hmm : m + 1 = m2 := hP.src ep hep m2 hm2 hes2 (m + 1) (by rw [h.depots]; omega)
          (by rw [hs]; exact hw)
        obtain ⟨p, g', h1, h2, h3⟩ := ih _ hlt g rfl (m + 1) w hm1 hb'
          ⟨ep.2.2, ep.1, by rw [← hs]; exact hep, by rw [hmm]; exact hes2, hg⟩
        exact ⟨e :: p, g', .stop hm he hes hw h1, hcons p g' h2, h3⟩
    · rw [after, if_neg hw] at hb'
      have hw0 : w ∉ S.depot m := by
        intro hh
        have := hP.dst _ he m hm hes m (by rw [h.depots]; omega) hh
        omega
      have hout := hb'.through m w hm hw0 hw
      rw [if_pos rfl] at hout
      obtain ⟨ep, hep, hs, hg⟩ := exists_pos (show 0 < outOver (S.sub m) g w by omega)
      have hs : ep.2.1 = w := by simpa using hs
      obtain ⟨hep, hes2⟩ := List.mem_filter.1 hep
      obtain ⟨p, g', h1, h2, h3⟩ := ih _ hlt g rfl m w hm hb'
        ⟨ep.2.2, ep.1, by rw [← hs]; exact hep, by simpa using hes2, hg⟩
      exact ⟨e :: p, g', .go hm he hes hw h1, hcons p g' h2, h3⟩

/-- A flow that supplies `k` units contains `k` routes. -/
theorem routes_of_flow (h : PipesOK S compOf vs) (hP : PhasesOK S) (k : ℕ) (f : E → ℕ)
    (hb : Bal S f fun _ => False) (hk : supplied S f = k) :
    ∃ rs : List (List E), rs.length = k ∧ (∀ p ∈ rs, ∃ o ∈ S.depot 0, PipeRoute S 0 o p) ∧
      ∀ e, rs.flatten.count e ≤ f e := by
  induction k generalizing f with
  | zero => exact ⟨[], rfl, by simp, by simp⟩
  | succ k ih =>
    have : ∃ o ∈ S.depot 0, 0 < outOver S.edges f o := by
      by_contra hc
      push Not at hc
      have : supplied S f = 0 := by
        unfold supplied
        rw [List.sum_eq_zero]
        intro n hn
        obtain ⟨o, ho, rfl⟩ := List.mem_map.1 hn
        have := hc o ho
        omega
      omega
    obtain ⟨o, ho, hpos⟩ := this
    obtain ⟨ep, hep, hs, hf⟩ := exists_pos hpos
    have hs : ep.2.1 = o := by simpa using hs
    obtain ⟨m, hm, hes⟩ := hP.ex ep hep
    have h0 : 0 = m := hP.src ep hep m hm hes 0 (by rw [h.depots]; omega) (by rw [hs]; exact ho)
    subst h0
    obtain ⟨p, g, h1, rfl, h3⟩ := strip h hP _ f rfl 0 o hm ((Bal.origin_iff ho).2 hb)
      ⟨ep.2.2, ep.1, by rw [← hs]; exact hep, hes, hf⟩
    rw [supplied_add, h1.supplied h hP ho] at hk
    obtain ⟨rs, r1, r2, r3⟩ := ih g h3 (by omega)
    refine ⟨p :: rs, by simp [r1], ?_, ?_⟩
    · intro q hq
      rcases List.mem_cons.1 hq with rfl | hq
      exacts [⟨o, ho, h1⟩, r2 q hq]
    · intro e
      rw [List.flatten_cons, List.count_append]
      have := r3 e
      show _ + _ ≤ _ + _
      omega

/-- Routes make a flow. -/
theorem flow_of_routes (h : PipesOK S compOf vs) (hP : PhasesOK S) {rs : List (List E)}
    (hr : ∀ p ∈ rs, ∃ o ∈ S.depot 0, PipeRoute S 0 o p) :
    Bal S (fun a => rs.flatten.count a) (fun _ => False) ∧
      supplied S (fun a => rs.flatten.count a) = rs.length ∧
      ∀ m < S.subNodes.length, received S (fun a => rs.flatten.count a) m = rs.length := by
  induction rs with
  | nil =>
    refine ⟨by simpa using bal_zero, by simp [supplied, outOver], fun m _ => by simp [received]⟩
  | cons p rs ih =>
    obtain ⟨i1, i2, i3⟩ := ih fun q hq => hr q (by simp [hq])
    obtain ⟨o, ho, hp⟩ := hr p (by simp)
    have hfun : (fun a => (p :: rs).flatten.count a) = fun a => p.count a + rs.flatten.count a := by
      funext a
      rw [List.flatten_cons, List.count_append]
    rw [hfun]
    refine ⟨((Bal.origin_iff ho).1 (hp.bal h hP)).add i1, ?_, fun m hm => ?_⟩
    · rw [supplied_add, hp.supplied h hP ho, i2, List.length_cons]; omega
    · rw [received_add, hp.received h hP hm, i3 m hm, if_pos (Nat.zero_le _), List.length_cons]; omega

/-- The amounts that can flow are the numbers of routes for which the capacities are enough. -/
theorem flow_iff_routes (h : PipesOK S compOf vs) (hP : PhasesOK S) (cap : E × K × K → ℚ) (k : ℕ) :
    (∃ f u, PipeFlow S cap f u ∧ ((S.depot 0).map u).sum = k) ↔ HasRoutes S cap k := by
  constructor
  · rintro ⟨f, u, hf, hk⟩
    have hs : supplied S f = k := by
      rw [← hk]
      unfold supplied
      congr 1
      exact List.map_congr_left fun o ho => hf.supply o ho
    obtain ⟨rs, h1, h2, h3⟩ := routes_of_flow h hP k f (hf.bal hP) hs
    refine ⟨rs, h1, h2, fun ep hep => le_trans ?_ (hf.cap ep hep)⟩
    exact_mod_cast h3 ep.1
  · rintro ⟨rs, rfl, h2, h3⟩
    obtain ⟨i1, i2, i3⟩ := flow_of_routes h hP h2
    exact ⟨_, _, i1.flow h3 fun m hm => by rw [i3 m hm, i2], i2⟩

end

end BNS
