import Verif.Model.PowerPlot
import Verif.Spec.PowerPlot
import Verif.Proofs.Files

/-!
# Lemmas on the map of the power network
-/

namespace BNS

set_option linter.unusedSectionVars false

variable {K : Type} [DecidableEq K]

theorem itemGet_itemsGet {V : Type} (d : List (K × V)) (k : K) :
    itemGet d k = itemsGet d k := by
  unfold itemGet itemsGet dictGet
  induction d with
  | nil => rfl
  | cons a d ih =>
    obtain ⟨a1, a2⟩ := a
    simp only at ih ⊢
    rw [List.find?_cons, List.lookup_cons]
    by_cases h : a1 = k
    · simp [h]
    · have h' : (k == a1) = false := by simpa using Ne.symm h
      simp only [h, decide_false, h']
      exact ih

theorem find?_house {houses : List (K × List K)} {pl : K}
    (h : ∃ x ∈ houses, pl ∈ x.2) :
    ∃ x, (houses.find? fun h => pl ∈ h.2) = some x ∧ HouseOf houses pl x.1 := by
  cases e : houses.find? fun h => pl ∈ h.2 with
  | none =>
    obtain ⟨x, hx, hp⟩ := h
    exact absurd hp (by simpa using List.find?_eq_none.1 e x hx)
  | some x =>
    obtain ⟨hp, l₁, l₂, rfl, hl⟩ := List.find?_eq_some_iff_append.1 e
    exact ⟨x, rfl, l₁, x.2, l₂, rfl, by simpa using hp, fun y hy => by simpa using hl y hy⟩

theorem firstHouse_found {houses : List (K × List K)} {pl : K}
    (h : ∃ x ∈ houses, pl ∈ x.2) :
    ∃ t, HouseOf houses pl t ∧ ∀ old, firstHouse houses pl old = some t := by
  obtain ⟨x, hx, hh⟩ := find?_house h
  refine ⟨x.1, hh, fun old => ?_⟩
  unfold firstHouse
  rw [hx]

theorem idxOf_split {l : List K} {pl : K} (h : pl ∈ l) :
    ∃ a r, l = a ++ pl :: r ∧ pl ∉ a ∧ l.idxOf pl = a.length := by
  obtain ⟨a, r, rfl, ha⟩ := List.eq_append_cons_of_mem h
  refine ⟨a, r, rfl, ha, ?_⟩
  rw [List.idxOf_append_of_notMem ha]
  simp

theorem subTail_found {paths : List (K × List (List K))} {houses : List (K × List K)}
    (hh : ∀ pl ∈ polesListed paths, ∃ x ∈ houses, pl ∈ x.2) {sp : K × List (List K)}
    (hsp : sp ∈ paths) {pl : K} (hp : ∃ p ∈ sp.2, pl ∈ p) :
    ∃ t, (∃ p ∈ sp.2, HangsOn houses sp.1 p pl t) ∧ ∀ old, subTail houses pl old sp = some t := by
  cases e : sp.2.find? fun p => pl ∈ p with
  | none =>
    obtain ⟨p, hp1, hp2⟩ := hp
    exact absurd hp2 (by simpa using List.find?_eq_none.1 e p hp1)
  | some p =>
    have hmem := List.mem_of_find?_eq_some e
    have hpl : pl ∈ p := by simpa using List.find?_some e
    obtain ⟨a, r, rfl, ha, hi⟩ := idxOf_split hpl
    rcases List.eq_nil_or_concat a with rfl | ⟨b, q, rfl⟩
    · refine ⟨sp.1, ⟨_, hmem, .inl ⟨r, rfl, rfl⟩⟩, fun old => ?_⟩
      unfold subTail
      rw [e]
      simp
    · have hq : q ∈ polesListed paths := by
        unfold polesListed
        exact List.mem_flatMap.2 ⟨sp, hsp, List.mem_flatten.2 ⟨_, hmem, by simp⟩⟩
      obtain ⟨t, ht, hf⟩ := firstHouse_found (hh q hq)
      refine ⟨t, ⟨_, hmem, .inr ⟨b, q, r, by simp, by simpa using ha, ht⟩⟩, fun old => ?_⟩
      unfold subTail
      rw [e]
      simp only [hi]
      have hlen : (b ++ [q]).length - 1 = b.length := by simp
      rw [List.concat_eq_append] at *
      rw [if_neg (by simp), hlen]
      have : (b ++ [q] ++ pl :: r)[b.length]? = some q := by simp
      rw [this]
      exact hf old

theorem subTail_skip {houses : List (K × List K)} {sp : K × List (List K)} {pl : K}
    (h : ∀ p ∈ sp.2, pl ∉ p) (old : Option K) : subTail houses pl old sp = old := by
  unfold subTail
  have : (sp.2.find? fun p => pl ∈ p) = none := List.find?_eq_none.2 fun p hp => by simpa using h p hp
  rw [this]

theorem tails {paths : List (K × List (List K))} {houses : List (K × List K)}
    (hh : ∀ pl ∈ polesListed paths, ∃ x ∈ houses, pl ∈ x.2) (pl : K)
    (l : List (K × List (List K))) (hl : ∀ sp ∈ l, sp ∈ paths) :
    (∃ t, (∃ s p, IsPath l s p ∧ HangsOn houses s p pl t) ∧
      ∀ old, l.foldl (subTail houses pl) old = some t) ∨
    ((∀ sp ∈ l, ∀ p ∈ sp.2, pl ∉ p) ∧ ∀ old, l.foldl (subTail houses pl) old = old) := by
  induction l with
  | nil => exact .inr ⟨by simp, fun _ => rfl⟩
  | cons sp l ih =>
    rcases ih (fun x hx => hl x (List.mem_cons_of_mem _ hx)) with ⟨t, ⟨s, p, ⟨ps, h1, h2⟩, h3⟩, hf⟩ | ⟨hn, hf⟩
    · exact .inl ⟨t, ⟨s, p, ⟨ps, List.mem_cons_of_mem _ h1, h2⟩, h3⟩, fun old => by
        rw [List.foldl_cons, hf]⟩
    · by_cases hp : ∃ p ∈ sp.2, pl ∈ p
      · obtain ⟨t, ⟨p, hp1, hp2⟩, ht⟩ := subTail_found hh (hl sp List.mem_cons_self) hp
        exact .inl ⟨t, ⟨sp.1, p, ⟨sp.2, List.mem_cons_self, hp1⟩, hp2⟩, fun old => by
          rw [List.foldl_cons, hf, ht]⟩
      · push Not at hp
        refine .inr ⟨?_, fun old => by rw [List.foldl_cons, hf, subTail_skip hp]⟩
        intro x hx
        rcases List.mem_cons.1 hx with rfl | hx
        · exact hp
        · exact hn x hx

/-- Every pole having a house, the entry of a pole does not depend on what came before. -/
theorem connStep_ok {paths : List (K × List (List K))} {houses : List (K × List K)}
    (hh : ∀ pl ∈ polesListed paths, ∃ x ∈ houses, pl ∈ x.2) {pl : K}
    (hpl : pl ∈ polesListed paths) :
    ∃ t h, HouseOf houses pl h ∧ (∃ s p, IsPath paths s p ∧ HangsOn houses s p pl t) ∧
      ∀ st, connStep paths houses st pl =
        .ok { tail := some t, head := some h, conn := itemSet st.conn pl (t, h) } := by
  obtain ⟨h, h1, h2⟩ := firstHouse_found (hh pl hpl)
  rcases tails hh pl paths (fun _ h => h) with ⟨t, ht, hf⟩ | ⟨hn, -⟩
  · refine ⟨t, h, h1, ht, fun st => ?_⟩
    unfold connStep
    simp only [hf, h2]
  · unfold polesListed at hpl
    obtain ⟨sp, hsp, hp⟩ := List.mem_flatMap.1 hpl
    obtain ⟨p, hp1, hp2⟩ := List.mem_flatten.1 hp
    exact absurd hp2 (hn sp hsp p hp1)

theorem conn_fold {paths : List (K × List (List K))} {houses : List (K × List K)}
    {c : K → K × K} (order : List K) (st : ConnState K)
    (hc : ∀ pl ∈ order, ∀ st, connStep paths houses st pl =
      .ok { tail := some (c pl).1, head := some (c pl).2, conn := itemSet st.conn pl (c pl) })
    (hn : (st.conn.map Prod.fst ++ order).Nodup) :
    ∃ st', order.foldlM (connStep paths houses) st = .ok st' ∧
      st'.conn = st.conn ++ order.map fun pl => (pl, c pl) := by
  induction order generalizing st with
  | nil => exact ⟨st, rfl, by simp⟩
  | cons pl order ih =>
    have hfresh : pl ∉ st.conn.map Prod.fst := by
      intro h
      rw [List.nodup_append] at hn
      exact hn.2.2 _ h _ List.mem_cons_self rfl
    rw [List.foldlM_cons, hc pl List.mem_cons_self, ok_bind]
    obtain ⟨st', h1, h2⟩ := ih
      { tail := some (c pl).1, head := some (c pl).2, conn := itemSet st.conn pl (c pl) } (fun x hx => hc x (List.mem_cons_of_mem _ hx)) (by
          rw [itemSet_fresh hfresh]
          simpa using hn)
    refine ⟨st', h1, ?_⟩
    rw [h2, itemSet_fresh hfresh]
    simp

theorem poleLoc_fold {base : List (K × Pt)} (conn : List (K × (K × K)))
    (locs : List (K × Pt)) (hn : (conn.map Prod.fst).Nodup)
    (hc : ∀ pp ∈ conn, ∃ a b, base.lookup pp.2.1 = some a ∧ base.lookup pp.2.2 = some b) :
    ∃ l, conn.foldlM (poleLoc base) locs = .ok l ∧
      (∀ k, k ∉ conn.map Prod.fst → l.lookup k = locs.lookup k) ∧
      ∀ pl t h a b, (pl, (t, h)) ∈ conn → base.lookup t = some a → base.lookup h = some b →
        l.lookup pl = some ((a.1 + b.1) / 2, (a.2 + b.2) / 2) := by
  induction conn generalizing locs with
  | nil => exact ⟨locs, rfl, by simp, by simp⟩
  | cons pp conn ih =>
    obtain ⟨a, b, ha, hb⟩ := hc pp List.mem_cons_self
    rw [List.map_cons, List.nodup_cons] at hn
    have hstep : poleLoc base locs pp =
        .ok (itemSet locs pp.1 (1 / 2 * (a.1 + b.1), 1 / 2 * (a.2 + b.2))) := by
      unfold poleLoc
      rw [itemGet_itemsGet, itemsGet_some ha, itemGet_itemsGet, itemsGet_some hb]
      rfl
    rw [List.foldlM_cons, hstep, ok_bind]
    obtain ⟨l, h1, h2, h3⟩ := ih (itemSet locs pp.1 (1 / 2 * (a.1 + b.1), 1 / 2 * (a.2 + b.2))) hn.2
      (fun x hx => hc x (List.mem_cons_of_mem _ hx))
    refine ⟨l, h1, fun k hk => ?_, ?_⟩
    · rw [List.map_cons, List.mem_cons, not_or] at hk
      rw [h2 k hk.2, lookup_itemSet, if_neg hk.1]
    · intro pl t h a' b' hmem ha' hb'
      rcases List.mem_cons.1 hmem with rfl | hmem
      · rw [h2 _ hn.1, lookup_itemSet, if_pos rfl]
        rw [ha] at ha'
        rw [hb] at hb'
        cases ha'
        cases hb'
        simp only [Option.some.injEq, Prod.mk.injEq]
        constructor <;> ring
      · exact h3 pl t h a' b' hmem ha' hb'

theorem poleLoc_missing {base : List (K × Pt)} (conn : List (K × (K × K)))
    (locs : List (K × Pt))
    (hc : ∃ pp ∈ conn, base.lookup pp.2.1 = none ∨ base.lookup pp.2.2 = none) :
    conn.foldlM (poleLoc base) locs = .error .key := by
  induction conn generalizing locs with
  | nil => obtain ⟨pp, h, -⟩ := hc; cases h
  | cons pp conn ih =>
    rw [List.foldlM_cons]
    cases ha : base.lookup pp.2.1 with
    | none =>
      have : poleLoc base locs pp = .error .key := by
        unfold poleLoc
        rw [itemGet_itemsGet, itemsGet_none ha]
        rfl
      rw [this]
      rfl
    | some a =>
      cases hb : base.lookup pp.2.2 with
      | none =>
        have : poleLoc base locs pp = .error .key := by
          unfold poleLoc
          rw [itemGet_itemsGet, itemsGet_some ha, itemGet_itemsGet, itemsGet_none hb]
          rfl
        rw [this]
        rfl
      | some b =>
        have hstep : poleLoc base locs pp =
            .ok (itemSet locs pp.1 (1 / 2 * (a.1 + b.1), 1 / 2 * (a.2 + b.2))) := by
          unfold poleLoc
          rw [itemGet_itemsGet, itemsGet_some ha, itemGet_itemsGet, itemsGet_some hb]
          rfl
        rw [hstep, ok_bind]
        refine ih _ ?_
        obtain ⟨x, hx, h⟩ := hc
        rcases List.mem_cons.1 hx with rfl | hx
        · rw [ha, hb] at h
          rcases h with h | h <;> cases h
        · exact ⟨x, hx, h⟩

end BNS
