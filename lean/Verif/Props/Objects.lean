import Verif.Model.Objects
import Verif.Proofs.Monad
import Verif.Proofs.BrcRules
import Verif.Proofs.BrcBox
import Verif.Props.Variable

/-!
# Properties C79 and C80: variables and branches as objects
-/

namespace BNS

set_option linter.unusedSectionVars false

section
variable {K : Type}

/-! ## C79: variables edited after construction -/

/-- Operations that concern object `i`, whose values are list `c`, in a way that can leave its table
behind. -/
def VOp.Touches (i c : ℕ) : VOp K → Prop
  | .setValues j _ => j = i
  | .append d _ => d = c
  | .setFlag j _ => j = i
  | .setB j _ => j = i
  | .updateB j val => j = i ∧ val ≠ none ∧ val ≠ some []
  | _ => False

/-- A variable is as if constructed now: `update_B()` brings any variable there, whatever was done to
it or to its list of values before, and it stays so until one of its attributes is set or its list is
edited.  Other operations, also on other variables, do not matter. -/
theorem C79_update_B (s : VHeap K) (i : ℕ) (o : VObj K) (ho : s.objs[i]? = some o)
    (hc : o.cell < s.lists.length) (post : List (VOp K))
    (hp : ∀ op ∈ post, ¬ op.Touches i o.cell) (val : Option (List (Finset ℕ)))
    (hval : val = none ∨ val = some []) :
    ∃ o', (post.foldl VHeap.step (s.step (.updateB i val))).objs[i]? = some o' ∧
      (post.foldl VHeap.step (s.step (.updateB i val))).view o' =
        Variable.mk' o.name (s.lists.getD o.cell []) o.flag := by
  have key : ∀ (post : List (VOp K)) (t : VHeap K) (o' : VObj K), t.objs[i]? = some o' →
      (∀ op ∈ post, ¬ op.Touches i o.cell) → o'.cell = o.cell → o'.flag = o.flag →
      o.cell < t.lists.length →
      t.view o' = Variable.mk' o.name (s.lists.getD o.cell []) o.flag →
      ∃ o'', (post.foldl VHeap.step t).objs[i]? = some o'' ∧
        (post.foldl VHeap.step t).view o'' =
          Variable.mk' o.name (s.lists.getD o.cell []) o.flag := by
    intro post
    induction post with
    | nil => exact fun t o' h1 _ _ _ _ h2 => ⟨o', h1, h2⟩
    | cons op post ih =>
      intro t o' h1 h2 h3 h4 h5 h6
      have hop := h2 op List.mem_cons_self
      have hrest := fun op' h => h2 op' (List.mem_cons_of_mem _ h)
      rw [List.foldl_cons]
      have hi : i < t.objs.length := (List.getElem?_eq_some_iff.1 h1).1
      cases op with
      | newList xs =>
        refine ih _ o' h1 hrest h3 h4 ?_ ?_
        · simp [VHeap.step]; omega
        · rw [← h6]
          unfold VHeap.view VHeap.step
          simp only [h3, Variable.mk.injEq, true_and, and_true]
          rw [List.getD_eq_getElem?_getD, List.getD_eq_getElem?_getD, List.getElem?_append_left h5]
      | new n v f =>
        refine ih _ o' ?_ hrest h3 h4 h5 h6
        unfold VHeap.step
        simp only
        rw [List.getElem?_append_left hi, h1]
      | setValues j c =>
        have hj : j ≠ i := fun e => hop e
        refine ih _ o' ?_ hrest h3 h4 h5 h6
        simp [VHeap.step, hj, h1]
      | append d x =>
        have hd : d ≠ o.cell := fun e => hop e
        refine ih _ o' h1 hrest h3 h4 (by simpa [VHeap.step] using h5) ?_
        rw [← h6]
        unfold VHeap.view VHeap.step
        simp [h3, hd]
      | setFlag j f =>
        have hj : j ≠ i := fun e => hop e
        refine ih _ o' ?_ hrest h3 h4 h5 h6
        simp [VHeap.step, hj, h1]
      | setB j B =>
        have hj : j ≠ i := fun e => hop e
        refine ih _ o' ?_ hrest h3 h4 h5 h6
        simp [VHeap.step, hj, h1]
      | updateB j v =>
        by_cases hj : j = i
        · subst hj
          have hv : v = none ∨ v = some [] := by
            by_contra hv
            push Not at hv
            exact hop ⟨rfl, hv.1, hv.2⟩
          refine ih _ { o' with B := ((t.view o').updateB o'.flag v).B } ?_ hrest h3 h4 h5 ?_
          · simp [VHeap.step, h1]
          · have h7 : t.lists.getD o'.cell [] = s.lists.getD o.cell [] := congrArg Variable.values h6
            have h8 : o'.name = o.name := congrArg Variable.name h6
            unfold VHeap.view at *
            rcases hv with rfl | rfl <;>
              simp only [VHeap.step, Variable.updateB, Variable.mk', h7, h8, h4]
        · refine ih _ o' ?_ hrest h3 h4 h5 h6
          simp [VHeap.step, hj, h1]
  refine key post _ { o with B := ((s.view o).updateB o.flag val).B } ?_ hp rfl rfl hc ?_
  · simp [VHeap.step, ho]
  · unfold VHeap.view
    rcases hval with rfl | rfl <;> simp only [VHeap.step, Variable.updateB, Variable.mk']

/-- `update_B` with a table stores it, and touches nothing else. -/
theorem C79_given_table (s : VHeap K) (i : ℕ) (o : VObj K) (ho : s.objs[i]? = some o)
    (B : List (Finset ℕ)) (hB : B ≠ []) :
    (s.step (.updateB i (some B))).objs[i]? = some { o with B := some B } ∧
      (s.step (.updateB i (some B))).lists = s.lists ∧
      ∀ j ≠ i, (s.step (.updateB i (some B))).objs[j]? = s.objs[j]? := by
  obtain ⟨b, bs, rfl⟩ := List.exists_cons_of_ne_nil hB
  refine ⟨?_, rfl, fun j hj => ?_⟩
  · simp [VHeap.step, ho, Variable.updateB]
  · simp [VHeap.step, Ne.symm hj]

/-- A variable constructed with a list of its own is as constructed until its attributes are set or
its list is edited. -/
theorem C79_constructed (s : VHeap K) (name : K) (cell : ℕ) (flag : BFlag)
    (hc : cell < s.lists.length) (post : List (VOp K))
    (hp : ∀ op ∈ post, ¬ op.Touches s.objs.length cell) :
    ∃ o', (post.foldl VHeap.step (s.step (.new name (some cell) flag))).objs[s.objs.length]? =
        some o' ∧
      (post.foldl VHeap.step (s.step (.new name (some cell) flag))).view o' =
        Variable.mk' name (s.lists.getD cell []) flag := by
  have hnew : (s.step (.new name (some cell) flag)).objs[s.objs.length]? = some
      { name, cell, flag, B := (Variable.mk' name (s.lists.getD cell []) flag).B } := by
    simp [VHeap.step]
  have hsame : (s.step (.new name (some cell) flag)).step (.updateB s.objs.length none) =
      s.step (.new name (some cell) flag) := by
    unfold VHeap.step
    simp only [Option.getD_some]
    congr 1
    refine List.ext_getElem? fun j => ?_
    rw [List.getElem?_modify]
    by_cases hj : s.objs.length = j
    · subst hj
      simp [VHeap.view, Variable.updateB, Variable.mk']
    · simp [hj]
  obtain ⟨o', h1, h2⟩ := C79_update_B (s.step (.new name (some cell) flag)) s.objs.length _ hnew hc
    post hp none (.inl rfl)
  rw [hsame] at h1 h2
  exact ⟨o', h1, h2⟩

/-- Not so without `update_B`: after a list of three values in place of two, state 2 is still `{0, 1}`
and the set `{2}` of the new basic state has no state; afterwards both are right. -/
theorem C79_stale : ∃ (ops : List (VOp String)) (o : VObj String),
    (ops.foldl VHeap.step VHeap.start).objs[0]? = some o ∧
    ((ops.foldl VHeap.step VHeap.start).view o).values = [0, 1, 2] ∧
    ((ops.foldl VHeap.step VHeap.start).view o).getSet 2 = .ok {0, 1} ∧
    ((ops.foldl VHeap.step VHeap.start).view o).getState {2} = .error .value ∧
    (Variable.mk' o.name [0, 1, 2] o.flag).getSet 2 = .ok {2} ∧
    (Variable.mk' o.name [0, 1, 2] o.flag).getState {2} = .ok 2 :=
  ⟨[.newList [0, 1], .newList [0, 1, 2], .new "x" (some 1) .dflt, .setValues 0 2], _, rfl,
    by decide +kernel, by decide +kernel, by decide +kernel, by decide +kernel, by decide +kernel⟩

/-- Variables constructed without values share one list: giving values to one of them by editing its
list gives them to the other. -/
theorem C79_shared_default : ∃ (ops : List (VOp String)) (o o' : VObj String),
    ops = [.new "x" none .dflt, .new "y" none .dflt, .append 0 5] ∧
    (ops.foldl VHeap.step VHeap.start).objs = [o, o'] ∧ o.name = "x" ∧ o'.name = "y" ∧
    ((ops.foldl VHeap.step VHeap.start).view o).values = [5] ∧
    ((ops.foldl VHeap.step VHeap.start).view o').values = [5] :=
  ⟨_, _, _, rfl, rfl, rfl, rfl, by decide +kernel, by decide +kernel⟩

/-- Appending to a list of values: exactly the variables that refer to the list get the value, as their
last state; their earlier states keep their values, and every table stays what it was. -/
theorem C79_append (s : VHeap K) (c : ℕ) (x : ℚ) (hc : c < s.lists.length) (i : ℕ) (o : VObj K)
    (ho : s.objs[i]? = some o) :
    (s.step (.append c x)).objs[i]? = some o ∧
      ((s.step (.append c x)).view o).B = (s.view o).B ∧
      (o.cell ≠ c → (s.step (.append c x)).view o = s.view o) ∧
      (o.cell = c → ((s.step (.append c x)).view o).values.length = (s.view o).values.length + 1 ∧
        ((s.step (.append c x)).view o).values[(s.view o).values.length]? = some x ∧
        ∀ j, j < (s.view o).values.length →
          ((s.step (.append c x)).view o).values[j]? = (s.view o).values[j]?) := by
  refine ⟨ho, rfl, fun h => ?_, fun h => ?_⟩
  · simp [VHeap.view, VHeap.step, List.getD_eq_getElem?_getD, Ne.symm h]
  · subst h
    have hv : ((s.step (.append o.cell x)).view o).values = (s.view o).values ++ [x] := by
      simp [VHeap.view, VHeap.step, List.getD_eq_getElem?_getD, hc]
    rw [hv]
    refine ⟨by simp, by simp, fun j hj => by rw [List.getElem?_append_left hj]⟩

/-- The name of a key. -/
def VKey.nm : VKey K → K
  | .var v => v.name
  | .str k => k

variable [DecidableEq K]

/-- Variables and strings as keys: two keys are equal just when the names are, and then the hashes
are; so a dictionary keyed by variables, strings or both is a dictionary keyed by names: the value
last set under a name is found with the variable, with any other variable of that name and with the
string. -/
theorem C79_keys {A : Type} (h : K → ℕ) :
    (∀ a b : VKey K, a.eq b = true ↔ a.nm = b.nm) ∧
    (∀ a b : VKey K, a.eq b = true → a.hash h = b.hash h) ∧
    ∀ (d : List (VKey K × A)) (k k' : VKey K) (a : A),
      keyGet h (keySet h k a d) k' = if k.nm = k'.nm then .ok a else keyGet h d k' := by
  have h1 : ∀ a b : VKey K, a.eq b = true ↔ a.nm = b.nm := by
    intro a b
    cases a <;> cases b <;> simp [VKey.eq, VKey.nm, eq_comm]
  have h2 : ∀ a b : VKey K, a.eq b = true → a.hash h = b.hash h := by
    intro a b hab
    rw [h1] at hab
    cases a <;> cases b <;> simp only [VKey.nm] at hab <;> simp [VKey.hash, hab]
  have h3 : ∀ a b : VKey K, (decide (a.hash h = b.hash h) && a.eq b) = decide (a.nm = b.nm) := by
    intro a b
    by_cases hab : a.nm = b.nm
    · have := (h1 a b).2 hab
      simp [hab, this, h2 a b this]
    · have : a.eq b = false := by
        rw [← Bool.not_eq_true, h1]
        exact hab
      simp [hab, this]
  refine ⟨h1, h2, fun d k k' a => ?_⟩
  unfold keyGet
  simp only [h3]
  induction d with
  | nil =>
    by_cases hk : k.nm = k'.nm <;> simp [keySet, hk]
  | cons e d ih =>
    unfold keySet
    simp only [h3, decide_eq_true_eq]
    by_cases he : e.1.nm = k.nm
    · rw [if_pos he]
      by_cases hk : k.nm = k'.nm
      · simp [he, hk]
      · simp [he, hk]
    · rw [if_neg he]
      by_cases hek : e.1.nm = k'.nm
      · have hk : k.nm ≠ k'.nm := fun e' => he (hek.trans e'.symm)
        simp [hek, hk]
      · simp only [List.find?_cons, hek, decide_false]
        exact ih

/-- Setting an entry: the keys the dictionary holds stay the same objects, in the same order — also when
the entry is set through another variable of that name or through the string; a new name is added as
the last key. -/
theorem C79_keys_kept {A : Type} (h : K → ℕ) (d : List (VKey K × A)) (k : VKey K) (a : A) :
    (keySet h k a d).map Prod.fst =
      if k.nm ∈ d.map (fun e => e.1.nm) then d.map Prod.fst else d.map Prod.fst ++ [k] := by
  obtain ⟨h1, h2, -⟩ := C79_keys (A := A) h
  induction d with
  | nil => rfl
  | cons e d ih =>
    unfold keySet
    by_cases he : e.1.nm = k.nm
    · have h3 := (h1 e.1 k).2 he
      rw [if_pos (by simp [h3, h2 _ _ h3]), if_pos (by simp [he])]
      rfl
    · have h3 : e.1.eq k = false := by
        rw [← Bool.not_eq_true, h1]
        exact he
      rw [if_neg (by simp [h3]), List.map_cons, ih]
      by_cases hm : k.nm ∈ d.map fun e => e.1.nm
      · rw [if_pos hm, if_pos (by rw [List.map_cons]; exact List.mem_cons_of_mem _ hm), List.map_cons]
      · rw [if_neg hm, if_neg (by
          rw [List.map_cons, List.mem_cons, not_or]
          exact ⟨fun h => he h.symm, hm⟩), List.map_cons, List.cons_append]

/-- Non-vacuity of `C79_update_B`: the variable of `C79_stale`, brought up to date, with later
operations on another variable. -/
example : ∃ (s : VHeap String) (o : VObj String) (post : List (VOp String)),
    s.objs[0]? = some o ∧ o.cell < s.lists.length ∧ post.length = 3 ∧
    (∀ op ∈ post, ¬ op.Touches 0 o.cell) :=
  ⟨[.newList [0, 1], .newList [0, 1, 2], .new "x" (some 1) .dflt, .setValues 0 2].foldl VHeap.step
      VHeap.start, _, [.new "y" (some 1) .fly, .setFlag 1 .store, .append 1 7], rfl, by decide, rfl,
    by intro op hop
       simp only [List.mem_cons, List.not_mem_nil, or_false] at hop
       rcases hop with rfl | rfl | rfl <;> simp [VOp.Touches]⟩

/-! ## C80: branch objects -/

/-- A branch the constructor accepts comes back from its dictionary as it was; the constructor
accepts exactly the pairs of dictionaries of equal size. -/
theorem C80_round_trip (b : BrObj K) :
    (b.down.length = b.up.length → BrObj.new b = .ok b ∧ BrObj.fromDict b.toDict = .ok b) ∧
    (b.down.length ≠ b.up.length →
      BrObj.new b = .error .assertion ∧ BrObj.fromDict b.toDict = .error .assertion) := by
  have h : BrObj.fromDict b.toDict = BrObj.new b := rfl
  rw [h]
  unfold BrObj.new
  exact ⟨fun h => ⟨if_pos h, if_pos h⟩, fun h => ⟨if_neg h, if_neg h⟩⟩

/-- `from_dict` raises `KeyError` if one of the five entries is missing. -/
theorem C80_missing_entry (d : List (String × BrVal K)) {k : String}
    (hk : k ∈ ["down", "up", "down_state", "up_state", "p"]) (h : d.lookup k = none) :
    BrObj.fromDict d = .error .key := by
  have hg : ∀ k, (∃ a, dictGet (fun k => d.lookup k) k = .ok a) ∨
      dictGet (fun k => d.lookup k) k = .error .key := by
    intro k
    cases e : d.lookup k with
    | none => exact .inr (by simp [dictGet, e])
    | some a => exact .inl ⟨a, by simp [dictGet, e]⟩
  have h' : dictGet (fun k => d.lookup k) k = .error .key := by simp [dictGet, h]
  unfold BrObj.fromDict
  rcases hg "down" with ⟨a1, e1⟩ | e1
  swap
  · rw [e1]; rfl
  rcases hg "up" with ⟨a2, e2⟩ | e2
  swap
  · rw [e1, e2]; rfl
  rcases hg "down_state" with ⟨a3, e3⟩ | e3
  swap
  · rw [e1, e2, e3]; rfl
  rcases hg "up_state" with ⟨a4, e4⟩ | e4
  swap
  · rw [e1, e2, e3, e4]; rfl
  rcases hg "p" with ⟨a5, e5⟩ | e5
  swap
  · rw [e1, e2, e3, e4, e5]; rfl
  simp only [List.mem_cons, List.not_mem_nil, or_false] at hk
  rcases hk with rfl | rfl | rfl | rfl | rfl
  · rw [e1] at h'; cases h'
  · rw [e2] at h'; cases h'
  · rw [e3] at h'; cases h'
  · rw [e4] at h'; cases h'
  · rw [e5] at h'; cases h'

/-- **C80**, a dictionary whose entry `down` or `up` is not a dictionary: the assertion fails. -/
theorem C80_wrong_kind (d : List (String × BrVal K)) (hd : ∀ k ∈ ["down", "up", "down_state", "up_state", "p"],
      k ∈ d.map Prod.fst) {k : String} (hk : k = "down" ∨ k = "up")
    (hv : ∀ v, d.lookup k ≠ some (.vec v)) : BrObj.fromDict d = .error .assertion := by
  have hget : ∀ k ∈ ["down", "up", "down_state", "up_state", "p"], ∃ v, d.lookup k = some v := by
    intro k hk
    obtain ⟨kv, h1, h2⟩ := List.mem_map.1 (hd k hk)
    cases h : d.lookup k with
    | some v => exact ⟨v, rfl⟩
    | none => exact absurd h2.symm (by simpa using List.lookup_eq_none_iff.1 h kv h1)
  obtain ⟨v1, h1⟩ := hget "down" (by simp)
  obtain ⟨v2, h2⟩ := hget "up" (by simp)
  obtain ⟨v3, h3⟩ := hget "down_state" (by simp)
  obtain ⟨v4, h4⟩ := hget "up_state" (by simp)
  obtain ⟨v5, h5⟩ := hget "p" (by simp)
  simp only [BrObj.fromDict, dictGet, h1, h2, h3, h4, h5, ok_bind]
  rcases hk with rfl | rfl
  · cases v1 with
    | vec v => exact absurd h1 (hv v)
    | _ => rfl
  · cases v2 with
    | vec v => exact absurd h2 (hv v)
    | _ => cases v1 <;> rfl

example : BrObj.fromDict [("down", .num none), ("up", .vec [("x", 1)]), ("down_state", .lab (some .s)),
    ("up_state", .lab (some .s)), ("p", .num (some 1))] = (.error .assertion : Except Err (BrObj String)) :=
  C80_wrong_kind _ (by decide) (.inl rfl) (by simp)

/-- Two branches are equal just when they agree in every component state, both labels and the
probability; the order of the entries does not matter. -/
theorem C80_equal (b c : BrObj K) (hb : (b.down.map Prod.fst).Nodup ∧ (b.up.map Prod.fst).Nodup)
    (hc : (c.down.map Prod.fst).Nodup ∧ (c.up.map Prod.fst).Nodup) :
    (b.eq (some c) = some true ↔ (∀ k, b.down.lookup k = c.down.lookup k) ∧
      (∀ k, b.up.lookup k = c.up.lookup k) ∧ b.downState = c.downState ∧ b.upState = c.upState ∧
      b.p = c.p) ∧ (b.eq (some c) = some true ∨ b.eq (some c) = some false) ∧ b.eq none = none := by
  have hlk : ∀ {d : List (K × ℕ)}, (d.map Prod.fst).Nodup → ∀ kv, kv ∈ d ↔ d.lookup kv.1 = some kv.2 := by
    intro d hd kv
    induction d with
    | nil => simp
    | cons e d ih =>
      rw [List.map_cons, List.nodup_cons] at hd
      rw [List.mem_cons, List.lookup_cons, ih hd.2]
      by_cases he : kv.1 = e.1
      · have h1 : (kv.1 == e.1) = true := by simp [he]
        simp only [h1]
        have hno : d.lookup kv.1 ≠ some kv.2 := fun hl => hd.1 (by
          rw [← he]
          exact List.mem_map.2 ⟨kv, (ih hd.2).2 hl, rfl⟩)
        constructor
        · rintro (rfl | h)
          · rfl
          · exact absurd h hno
        · intro h
          left
          have : e.2 = kv.2 := by simpa using h
          exact Prod.ext he this.symm
      · have h1 : (kv.1 == e.1) = false := by simp [he]
        simp only [h1]
        constructor
        · rintro (rfl | h)
          · exact absurd rfl he
          · exact h
        · exact .inr
  have hd : ∀ {d e : List (K × ℕ)}, (d.map Prod.fst).Nodup → (e.map Prod.fst).Nodup →
      (dictEq d e = true ↔ ∀ k, d.lookup k = e.lookup k) := by
    intro d e hd he
    refine ⟨fun h => dictEq_lookup hd he h, fun h => dictEq_iff.2 fun kv => ?_⟩
    rw [hlk hd, hlk he, h]
  refine ⟨?_, ?_, rfl⟩
  · unfold BrObj.eq
    simp only [Option.some.injEq, Bool.and_eq_true, decide_eq_true_eq, hd hb.1 hc.1, hd hb.2 hc.2,
      and_assoc]
  · unfold BrObj.eq
    simp only [Option.some.injEq]
    exact (Bool.eq_false_or_eq_true _)

/-- `approx_prob`: defined just when every component of `down` has an upper state and a probability
for every state in between — otherwise `KeyError` — and then the product of the sums. -/
theorem C80_probability_defined (b : BrObj K) (probs : List (K × List (ℕ × ℚ))) :
    ((∀ kv ∈ b.down, ∃ u, b.up.lookup kv.1 = some u ∧ ∀ x, kv.2 ≤ x → x ≤ u →
        ∃ d q, probs.lookup kv.1 = some d ∧ d.lookup x = some q) ↔
      ∃ b', b.approxProb probs = .ok b') ∧
    ((∃ b', b.approxProb probs = .ok b') ∨ b.approxProb probs = .error .key) := by
  have hf : ∀ kv, ((∃ u, b.up.lookup kv.1 = some u ∧ ∀ x, kv.2 ≤ x → x ≤ u →
      ∃ d q, probs.lookup kv.1 = some d ∧ d.lookup x = some q) ∧
        ∃ q, objFactor probs b.up kv = .ok q) ∨
      (¬ (∃ u, b.up.lookup kv.1 = some u ∧ ∀ x, kv.2 ≤ x → x ≤ u →
        ∃ d q, probs.lookup kv.1 = some d ∧ d.lookup x = some q) ∧
        objFactor probs b.up kv = .error .key) := by
    intro kv
    unfold objFactor
    cases hu : b.up.lookup kv.1 with
    | none => right; exact ⟨by simp, by simp [dictGet, hu, error_bind]⟩
    | some u =>
      have e1 : dictGet (fun k => b.up.lookup k) kv.1 = .ok u := by simp [dictGet, hu]
      rw [e1, ok_bind]
      have hin : ∀ x, (∃ d q, probs.lookup kv.1 = some d ∧ d.lookup x = some q ∧
          (dictGet (fun k => probs.lookup k) kv.1 >>= fun d => dictGet (fun i => d.lookup i) x) =
            .ok q) ∨ ((¬ ∃ d q, probs.lookup kv.1 = some d ∧ d.lookup x = some q) ∧
          (dictGet (fun k => probs.lookup k) kv.1 >>= fun d => dictGet (fun i => d.lookup i) x) =
            .error .key) := by
        intro x
        cases hd : probs.lookup kv.1 with
        | none => right; exact ⟨by simp, by simp [dictGet, hd, error_bind]⟩
        | some d =>
          have e2 : dictGet (fun k => probs.lookup k) kv.1 = .ok d := by simp [dictGet, hd]
          rw [e2, ok_bind]
          cases hq : d.lookup x with
          | none => right; exact ⟨by simp [hq], by simp [dictGet, hq]⟩
          | some q => left; exact ⟨d, q, rfl, hq, by simp [dictGet, hq]⟩
      by_cases hall : ∀ x, kv.2 ≤ x → x ≤ u → ∃ d q, probs.lookup kv.1 = some d ∧ d.lookup x = some q
      · left
        refine ⟨⟨u, rfl, hall⟩, ?_⟩
        rw [mapM_ok (g := fun x => ((probs.lookup kv.1).bind fun d => d.lookup x).getD 0)]
        · exact ⟨_, rfl⟩
        · intro x hx
          rw [List.mem_range'_1] at hx
          rcases hin x with ⟨d, q, h1, h2, h3⟩ | ⟨h1, -⟩
          · rw [h3, h1]
            simp [h2]
          · exact absurd (hall x hx.1 (by omega)) h1
      · right
        refine ⟨by rintro ⟨u', h1, h2⟩; cases h1; exact hall h2, ?_⟩
        push Not at hall
        obtain ⟨x, hx1, hx2, hx3⟩ := hall
        rw [mapM_error (e := .key)]
        · rfl
        · refine ⟨x, by rw [List.mem_range'_1]; omega, ?_⟩
          rcases hin x with ⟨d, q, h1, h2, -⟩ | ⟨-, h1⟩
          · exact absurd h2 (hx3 d q h1)
          · exact h1
        · intro y _ e' he
          rcases hin y with ⟨d, q, -, -, h1⟩ | ⟨-, h1⟩
          · rw [h1] at he; cases he
          · rw [h1] at he; cases he; rfl
  by_cases hall : ∀ kv ∈ b.down, ∃ u, b.up.lookup kv.1 = some u ∧ ∀ x, kv.2 ≤ x → x ≤ u →
      ∃ d q, probs.lookup kv.1 = some d ∧ d.lookup x = some q
  · have hok : ∃ b', b.approxProb probs = .ok b' := by
      unfold BrObj.approxProb
      rw [mapM_ok (g := fun kv => match objFactor probs b.up kv with | .ok q => q | .error _ => 0)]
      · exact ⟨_, rfl⟩
      · intro kv hkv
        rcases hf kv with ⟨-, q, h1⟩ | ⟨h1, -⟩
        · rw [h1]
        · exact absurd (hall kv hkv) h1
    exact ⟨⟨fun _ => hok, fun _ => hall⟩, .inl hok⟩
  · have herr : b.approxProb probs = .error .key := by
      push Not at hall
      obtain ⟨kv, hkv, hn⟩ := hall
      unfold BrObj.approxProb
      rw [mapM_error (e := .key)]
      · rfl
      · refine ⟨kv, hkv, ?_⟩
        rcases hf kv with ⟨⟨u, h1, h2⟩, -⟩ | ⟨-, h1⟩
        · obtain ⟨x, hx1, hx2, hx3⟩ := hn u h1
          obtain ⟨d, q, h3, h4⟩ := h2 x hx1 hx2
          exact absurd h4 (hx3 d q h3)
        · exact h1
      · intro y _ e' he
        rcases hf y with ⟨-, q, h1⟩ | ⟨-, h1⟩
        · rw [h1] at he; cases he
        · rw [h1] at he; cases he; rfl
    exact ⟨⟨fun h => absurd h hall, fun ⟨b', h⟩ => by rw [herr] at h; cases h⟩, .inr herr⟩

/-- On a branch between two vectors of component states the probability stored by `approx_prob` is
that of a component vector between them; the rest of the branch is kept. -/
theorem C80_probability (b : BrObj K) (probs : List (K × List (ℕ × ℚ))) {vs : List (K × ℕ)}
    (hv : VarisOK vs) (hd : (b.down.map Prod.fst).Perm (vs.map Prod.fst)) (B : Branch K)
    (hbox : BoxOK vs B) (hdown : ∀ kv ∈ b.down, kv.2 = B.down kv.1)
    (hup : ∀ kn ∈ vs, b.up.lookup kn.1 = some (B.up kn.1)) (q : K → ℕ → ℚ)
    (hq : ∀ kn ∈ vs, ∃ d, probs.lookup kn.1 = some d ∧ ∀ i < kn.2, d.lookup i = some (q kn.1 i)) :
    b.approxProb probs = .ok { b with p := some (probOf vs q (InBox vs B)) } := by
  have hfac : ∀ kv ∈ b.down, objFactor probs b.up kv =
      .ok (rangeProb (q kv.1) (B.down kv.1) (B.up kv.1)) := by
    intro kv hkv
    obtain ⟨kn, hkn, e⟩ := List.mem_map.1 (hd.mem_iff.1 (List.mem_map_of_mem hkv))
    obtain ⟨d, hd1, hd2⟩ := hq kn hkn
    have e1 := hup kn hkn
    have hb := hbox kn hkn
    have e0 := hdown kv hkv
    rw [e] at hd1 e1 hb hd2
    unfold objFactor
    have e2 : dictGet (fun k => b.up.lookup k) kv.1 = .ok (B.up kv.1) := by simp [dictGet, e1]
    have e3 : dictGet (fun k => probs.lookup k) kv.1 = .ok d := by simp [dictGet, hd1]
    rw [e2, ok_bind, mapM_ok (g := q kv.1), e0]
    · rfl
    · intro x hx
      rw [List.mem_range'_1] at hx
      rw [e3, ok_bind]
      simp [dictGet, hd2 x (by omega)]
  unfold BrObj.approxProb
  rw [mapM_ok hfac]
  have : (b.down.map fun kv => rangeProb (q kv.1) (B.down kv.1) (B.up kv.1)).prod =
      probOf vs q (InBox vs B) := by
    rw [← approxProb_eq hv q hbox]
    unfold approxProb
    have h1 : (b.down.map fun kv => rangeProb (q kv.1) (B.down kv.1) (B.up kv.1)) =
        (b.down.map Prod.fst).map fun k => rangeProb (q k) (B.down k) (B.up k) := by
      rw [List.map_map]; rfl
    have h2 : (vs.map fun kn => rangeProb (q kn.1) (B.down kn.1) (B.up kn.1)) =
        (vs.map Prod.fst).map fun k => rangeProb (q k) (B.down k) (B.up k) := by
      rw [List.map_map]; rfl
    rw [h1, h2]
    exact (hd.map _).prod_eq
  rw [← this]
  rfl

end

/-- The constructor does not compare the components of the two vectors, nor their order: a branch
over different components is accepted and raises only later, one with `down` above `up` is accepted
and gets probability 0. -/
theorem C80_not_checked : ∃ b c : BrObj String,
    BrObj.new b = .ok b ∧ b.approxProb [("x", [(0, 1 / 2), (1, 1 / 2)])] = .error .key ∧
    BrObj.new c = .ok c ∧ (c.approxProb [("x", [(0, 1 / 2), (1, 1 / 2)])]).map BrObj.p = .ok (some 0) :=
  ⟨{ down := [("x", 0)], up := [("y", 1)], downState := none, upState := none, p := none },
    { down := [("x", 1)], up := [("x", 0)], downState := none, upState := none, p := none },
    rfl, rfl, rfl, by decide +kernel⟩

/-- Non-vacuity: a branch of two components, its entries in different orders. -/
example : ∃ (b c : BrObj String) (B : Branch String),
    b.eq (some c) = some true ∧ b.down ≠ c.down ∧ (b.down.map Prod.fst).Perm ["y", "x"] ∧
    BoxOK [("y", 2), ("x", 3)] B ∧ (∀ kv ∈ b.down, kv.2 = B.down kv.1) ∧
    (b.approxProb [("x", [(0, 1 / 2), (1, 1 / 3), (2, 1 / 6)]), ("y", [(0, 1 / 4), (1, 3 / 4)])]).map
      BrObj.p = .ok (some (3 / 8)) :=
  ⟨{ down := [("x", 1), ("y", 1)], up := [("x", 2), ("y", 1)], downState := some .u
     upState := some .s, p := some 1 },
   { down := [("y", 1), ("x", 1)], up := [("x", 2), ("y", 1)], downState := some .u
     upState := some .s, p := some 1 },
   { down := fun _ => 1, up := fun k => if k = "x" then 2 else 1, downState := .u, upState := .s, p := 1 },
   by decide +kernel, by decide, by decide, by decide, by decide, by decide +kernel⟩

end BNS
