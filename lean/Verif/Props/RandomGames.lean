import Verif.Lemmas.RandomGames

/-!
# Random CIDs and MACIDs (C81)
-/

namespace Verif

open Random Macid Relation

namespace Random

theorem Renamed.parents {f : Node → Node} {g G : Graph} (h : Renamed f g G) (hw : g.WF) {v : Node} (hv : v ∈ g.nodes) :
    (G.parents (f v)).length = (g.parents v).length := by
  have hnd : ((g.parents v).map f).Nodup := (Graph.nodup_parents hw.edgesNodup v).map_on (fun a ha b hb e =>
    h.inj a (hw.edgeNodes _ _ (Graph.mem_parents.1 ha)).1 b (hw.edgeNodes _ _ (Graph.mem_parents.1 hb)).1 e)
  have hp : (G.parents (f v)).Perm ((g.parents v).map f) :=
    (List.perm_ext_iff_of_nodup (Graph.nodup_parents h.wf.edgesNodup _) hnd).2 (by
      intro x
      rw [Graph.mem_parents, h.edge, List.mem_map]
      constructor
      · rintro ⟨a, b, hab, rfl, e⟩
        have := h.inj v hv b (hw.edgeNodes _ _ hab).2 e
        subst this
        exact ⟨a, Graph.mem_parents.2 hab, rfl⟩
      · rintro ⟨a, ha, rfl⟩
        exact ⟨a, v, Graph.mem_parents.1 ha, rfl, rfl⟩)
  simpa using hp.length_eq

theorem given_of_game {w : Wanted} {mb : Macid} (hl : w.decs.length = w.utils.length) (hg : IsRandomGame w mb) : ∀ v ∈ mb.g.nodes, Given v := by
  intro v hv
  cases hr : mb.role v with
  | chance =>
    obtain ⟨i, hi⟩ := hg.chance v hv hr
    exact Or.inr (Or.inr ⟨i, hi⟩)
  | decision a =>
    obtain ⟨l, hl, hm⟩ := (hg.consistent.dec.iff v a).1 (role_decision.1 hr)
    have ha := Dict.mem_keys.2 ⟨l, hl⟩
    rw [hg.decAgents, List.mem_range] at ha
    rw [hg.decs a _ (List.getElem?_eq_getElem ha)] at hl
    cases hl
    obtain ⟨i, _, e⟩ := List.mem_map.1 hm
    exact Or.inr (Or.inl ⟨a, i, e.symm⟩)
  | utility a =>
    obtain ⟨l, hl', hm⟩ := (hg.consistent.util.iff v a).1 ((role_utility hg.consistent).1 hr)
    have ha := Dict.mem_keys.2 ⟨l, hl'⟩
    rw [hg.utilAgents, List.mem_range, hl] at ha
    rw [hg.utils a _ (List.getElem?_eq_getElem ha)] at hl'
    cases hl'
    obtain ⟨i, _, e⟩ := List.mem_map.1 hm
    exact Or.inl ⟨a, i, e.symm⟩

theorem lengths_of_ok {pick : Pick} {ord : SetOrder} {w : Wanted} {n : Nat} {ω : Draws} {r : Macid × Draws}
    (h : randomMacidBase pick ord w n ω = some (.ok r)) : w.decs.length = w.utils.length := by
  unfold randomMacidBase at h
  split at h
  · simp at h
  · omega

end Random

/-- **C81** What `random_macid` returns is a random game of the kind that was asked for. -/
theorem C81_random_macid {pick : Pick} {ord : SetOrder} (ho : ord.Valid) {w : Wanted} (h2 : 2 ≤ w.nodes) {n : Nat} {ω ω' : Draws} {m : Macid}
    (h : randomMacid pick ord w n ω = some (.ok (m, ω'))) :
    IsRandomGame w m ∧ (w.recall = true → ∀ v ∈ m.g.nodes, ((m.g.parents v).length : Int) ≤ w.maxIn) := by
  unfold randomMacid at h
  split at h
  · simp at h
  · simp at h
  rename_i mb ω1 h1
  obtain ⟨hg, hd⟩ := C72_random_macidbase ho h2 h1
  obtain ⟨m', k1, k2, k3, k4⟩ := rebuilt h2 hg
  rw [k1] at h
  simp only [Option.some.injEq, Except.ok.injEq, Prod.mk.injEq] at h
  obtain ⟨rfl, _⟩ := h
  refine ⟨k2, fun hr v hv => ?_⟩
  have hp : (m'.g.parents v).Perm (mb.g.parents v) :=
    (List.perm_ext_iff_of_nodup (Graph.nodup_parents k2.consistent.wf.edgesNodup v) (Graph.nodup_parents hg.consistent.wf.edgesNodup v)).2 (by
      intro x
      rw [Graph.mem_parents, Graph.mem_parents, k4])
  rw [hp.length_eq]
  exact hd hr v ((k3 v).1 hv)

/-- **C81** `random_macid` raises nothing but ValueError. -/
theorem C81_random_macid_error {pick : Pick} {ord : SetOrder} (ho : ord.Valid) {w : Wanted} (h2 : 2 ≤ w.nodes) {n : Nat} {ω : Draws} {e : Err}
    (h : randomMacid pick ord w n ω = some (.error e)) : e = .value := by
  unfold randomMacid at h
  split at h
  · simp at h
  · rename_i e' h1
    simp only [Option.some.injEq, Except.error.injEq] at h
    subst h
    exact (C72_value_error ho h2).2 _ h1
  rename_i mb ω1 h1
  obtain ⟨hg, hd⟩ := C72_random_macidbase ho h2 h1
  obtain ⟨m', k1, k2, k3, k4⟩ := rebuilt h2 hg
  rw [k1] at h
  simp at h

theorem Random.randomCid_ok {pick : Pick} {ord : SetOrder} (ho : ord.Valid) {n decs utils : Nat} (h2 : 2 ≤ n) {recall : Bool} {density : Rat}
    {maxIn : Int} {k : Nat} {ω ω' : Draws} {cid : Macid} (h : randomCid pick ord n decs utils recall density maxIn k ω = some (.ok (cid, ω'))) :
    IsRandomCid n decs utils cid ∧ NamesOk cid.g ∧ (recall = true → ∀ v ∈ cid.g.nodes, ((cid.g.parents v).length : Int) ≤ maxIn) := by
  unfold randomCid at h
  split at h
  · simp at h
  · simp at h
  rename_i mb ω1 h1
  obtain ⟨hg, hd⟩ := C72_random_macidbase ho h2 h1
  obtain ⟨m', k1, k2, k3, f, k4, _⟩ := cidMade h2 hg
  dsimp only at h
  rw [k1] at h
  simp only [Option.some.injEq, Except.ok.injEq, Prod.mk.injEq] at h
  obtain ⟨rfl, _⟩ := h
  refine ⟨k2, k3, fun hr v hv => ?_⟩
  obtain ⟨u, hu, rfl⟩ := (k4.nodes v).1 hv
  rw [k4.parents hg.consistent.wf hu]
  exact hd hr u hu

/-- **C81** What `random_cid` returns is a CID of the kind that was asked for, see `IsRandomCid`. -/
theorem C81_random_cid {pick : Pick} {ord : SetOrder} (ho : ord.Valid) {n decs utils : Nat} (h2 : 2 ≤ n) {recall : Bool} {density : Rat}
    {maxIn : Int} {k : Nat} {ω ω' : Draws} {cid : Macid} (h : randomCid pick ord n decs utils recall density maxIn k ω = some (.ok (cid, ω'))) :
    IsRandomCid n decs utils cid ∧ (recall = true → ∀ v ∈ cid.g.nodes, ((cid.g.parents v).length : Int) ≤ maxIn) :=
  ⟨(randomCid_ok ho h2 h).1, (randomCid_ok ho h2 h).2.2⟩

/-- **C81** `random_cid` raises nothing but ValueError. -/
theorem C81_random_cid_error {pick : Pick} {ord : SetOrder} (ho : ord.Valid) {n decs utils : Nat} (h2 : 2 ≤ n) {recall : Bool} {density : Rat}
    {maxIn : Int} {k : Nat} {ω : Draws} {e : Err} (h : randomCid pick ord n decs utils recall density maxIn k ω = some (.error e)) : e = .value := by
  unfold randomCid at h
  split at h
  · simp at h
  · rename_i e' h1
    simp only [Option.some.injEq, Except.error.injEq] at h
    subst h
    exact (C72_value_error ho h2).2 _ h1
  rename_i mb ω1 h1
  obtain ⟨hg, hd⟩ := C72_random_macidbase ho h2 h1
  obtain ⟨m', k1, k2, k3, f, k4, _⟩ := cidMade h2 hg
  dsimp only at h
  rw [k1] at h
  simp at h

namespace Random

theorem randint_ok {range : Nat × Nat} {r x : Nat} (h : randint range r = .ok x) : range.1 ≤ x ∧ x ≤ range.2 := by
  unfold randint at h
  split at h
  · cases h
  · have := Nat.mod_lt r (show 0 < range.2 - range.1 + 1 by omega)
    cases h
    omega

theorem randint_error {range : Nat × Nat} {r : Nat} {e : Err} (h : randint range r = .error e) : e = .value := by
  unfold randint at h
  split at h
  · cases h; rfl
  · cases h

/-- what the loops keep of every CID they accept -/
def GoodCid (total decs utils : Nat × Nat) (cid : Macid) : Prop :=
  ∃ n d u, (total.1 ≤ n ∧ n ≤ total.2) ∧ (decs.1 ≤ d ∧ d ≤ decs.2) ∧ (utils.1 ≤ u ∧ u ≤ utils.2) ∧ IsRandomCid n d u cid ∧
    cid.NoRelianceCycle ((List.range d).map (fun i => "D" ++ toString i))

theorem cid_recall {n d u : Nat} {cid : Macid} (hc : IsRandomCid n d u cid) (hn : NamesOk cid.g) (pick : Pick) (tpick : List Node → Nat) :
    ∃ b, sufficientRecall pick tpick cid none = .ok b ∧ (b = true ↔ cid.NoRelianceCycle ((List.range d).map (fun i => "D" ++ toString i))) := by
  have hag : cid.agents = [0] := by
    unfold Macid.agents
    rw [hc.utils]
    rfl
  obtain ⟨b, h1, h2⟩ := C19_sufficient_recall_all cid hc.consistent hn pick tpick (by rw [hag, hc.decs]; simp [Dict.keys])
  refine ⟨b, h1, h2.trans ?_⟩
  rw [hag, hc.decs]
  constructor
  · intro h
    exact h 0 (by simp) _ rfl
  · intro h a ha ds hds
    obtain ⟨_, rfl⟩ := get_single hds
    exact h

theorem cidsLoop_ok {pick : Pick} {ord : SetOrder} (ho : ord.Valid) {tpick : List Node → Nat} {total decs utils : Nat × Nat} (h2 : 2 ≤ total.1)
    {recall : Bool} {density : Rat} {n : Nat} : ∀ {fuel : Nat} {cids : List Macid} {ω ω' : Draws} {res : List Macid}, cids.length ≤ n →
    (∀ c ∈ cids, GoodCid total decs utils c) → cidsLoop pick ord tpick total decs utils recall density n fuel cids ω = some (.ok (res, ω')) →
    res.length = n ∧ ∀ c ∈ res, GoodCid total decs utils c
  | 0, _, _, _, _, _, _, h => by simp [cidsLoop] at h
  | fuel + 1, cids, ω, ω', res, hlen, hgood, h => by
    unfold cidsLoop at h
    split at h
    · rename_i hle
      simp only [Option.some.injEq, Except.ok.injEq, Prod.mk.injEq] at h
      obtain ⟨rfl, _⟩ := h
      exact ⟨by omega, hgood⟩
    rename_i hle
    split at h
    · rename_i r1 r2 r3 ω1
      split at h
      · simp at h
      · simp at h
      · simp at h
      rename_i a d u ha hd hu
      split at h
      · simp at h
      · simp at h
      rename_i cid ω2 hcid
      have ra := randint_ok ha
      obtain ⟨k1, k2, _⟩ := randomCid_ok ho (by omega) hcid
      obtain ⟨b, hb1, hb2⟩ := cid_recall k1 k2 pick tpick
      rw [hb1] at h
      cases b with
      | true =>
        refine cidsLoop_ok ho h2 (by rw [List.length_append, List.length_singleton]; omega) ?_ h
        intro c hc
        rcases List.mem_append.1 hc with hc | hc
        · exact hgood c hc
        · rw [List.mem_singleton.1 hc]
          exact ⟨a, d, u, ra, randint_ok hd, randint_ok hu, k1, hb2.1 rfl⟩
      | false => exact cidsLoop_ok ho h2 hlen hgood h
    · simp at h

theorem cidsLoop_error {pick : Pick} {ord : SetOrder} (ho : ord.Valid) {tpick : List Node → Nat} {total decs utils : Nat × Nat} (h2 : 2 ≤ total.1)
    {recall : Bool} {density : Rat} {n : Nat} {e : Err} : ∀ {fuel : Nat} {cids : List Macid} {ω : Draws},
    cidsLoop pick ord tpick total decs utils recall density n fuel cids ω = some (.error e) → e = .value
  | 0, _, _, h => by simp [cidsLoop] at h
  | fuel + 1, cids, ω, h => by
    unfold cidsLoop at h
    split at h
    · simp at h
    split at h
    · rename_i r1 r2 r3 ω1
      split at h
      · rename_i he
        simp only [Option.some.injEq, Except.error.injEq] at h
        subst h
        exact randint_error he
      · rename_i he
        simp only [Option.some.injEq, Except.error.injEq] at h
        subst h
        exact randint_error he
      · rename_i he
        simp only [Option.some.injEq, Except.error.injEq] at h
        subst h
        exact randint_error he
      rename_i a d u ha hd hu
      have ra := randint_ok ha
      split at h
      · simp at h
      · rename_i e' hcid
        simp only [Option.some.injEq, Except.error.injEq] at h
        subst h
        exact C81_random_cid_error ho (by omega) hcid
      rename_i cid ω2 hcid
      obtain ⟨k1, k2, _⟩ := randomCid_ok ho (by omega) hcid
      obtain ⟨b, hb1, hb2⟩ := cid_recall k1 k2 pick tpick
      rw [hb1] at h
      cases b with
      | true => exact cidsLoop_error ho h2 h
      | false => exact cidsLoop_error ho h2 h
    · simp at h

theorem choices_ok {range : Nat × Nat} : ∀ {k : Nat} {ω ω' : Draws} {xs : List Nat}, choices range k ω = some (.ok (xs, ω')) →
    xs.length = k ∧ ∀ x ∈ xs, range.1 ≤ x ∧ x < range.2
  | 0, ω, ω', xs, h => by
    simp only [choices, Option.some.injEq, Except.ok.injEq, Prod.mk.injEq] at h
    obtain ⟨rfl, _⟩ := h
    simp
  | k + 1, ω, ω', xs, h => by
    unfold choices at h
    split at h
    · simp at h
    split at h
    · simp at h
    rename_i x hx
    split at h
    · simp at h
    · simp at h
    rename_i ys ω2 hys
    simp only [Option.some.injEq, Except.ok.injEq, Prod.mk.injEq] at h
    obtain ⟨rfl, _⟩ := h
    obtain ⟨i1, i2⟩ := choices_ok hys
    refine ⟨by simp [i1], ?_⟩
    intro y hy
    rcases List.mem_cons.1 hy with rfl | hy
    · have := List.mem_of_getElem? (choice_ok hx)
      rw [List.mem_range'_1] at this
      omega
    · exact i2 y hy

/-- what the loop keeps of every MACID it accepts -/
def GoodMacid (total decs utils : Nat × Nat) (recall : Bool) (density : Rat) (m : Macid) : Prop :=
  ∃ n ds us, (total.1 ≤ n ∧ n ≤ total.2) ∧ ds.length = us.length ∧ (1 ≤ ds.length ∧ ds.length ≤ 3) ∧ (∀ d ∈ ds, decs.1 ≤ d ∧ d < decs.2) ∧
    (∀ u ∈ us, utils.1 ≤ u ∧ u < utils.2) ∧ IsRandomGame ⟨n, ds, us, recall, density, 4⟩ m ∧
    ∀ a l, m.agentDecisions.get? a = some l → m.NoRelianceCycle l

theorem macid_recall {w : Wanted} {m : Macid} (hl : w.decs.length = w.utils.length) (hg : IsRandomGame w m) (pick : Pick) (tpick : List Node → Nat) :
    ∃ b, sufficientRecall pick tpick m none = .ok b ∧ (b = true ↔ ∀ a l, m.agentDecisions.get? a = some l → m.NoRelianceCycle l) := by
  have hk : ∀ a, a ∈ m.agents ↔ a ∈ m.agentDecisions.keys := by
    intro a
    unfold Macid.agents
    rw [hg.decAgents, ← hg.utilAgents]
  obtain ⟨b, h1, h2⟩ := C19_sufficient_recall_all m hg.consistent (namesOk_of_given (given_of_game hl hg)) pick tpick (fun a ha => (hk a).1 ha)
  refine ⟨b, h1, h2.trans ?_⟩
  constructor
  · intro h a l hl
    exact h a ((hk a).2 (Dict.mem_keys.2 ⟨l, hl⟩)) l hl
  · intro h a _ l hl
    exact h a l hl

theorem macidsLoop_ok {pick : Pick} {ord : SetOrder} (ho : ord.Valid) {tpick : List Node → Nat} {total decs utils : Nat × Nat} (h2 : 2 ≤ total.1)
    {recall : Bool} {density : Rat} {n : Nat} : ∀ {fuel : Nat} {ms : List Macid} {ω ω' : Draws} {res : List Macid}, ms.length ≤ n →
    (∀ c ∈ ms, GoodMacid total decs utils recall density c) → macidsLoop pick ord tpick total decs utils recall density n fuel ms ω = some (.ok (res, ω')) →
    res.length = n ∧ ∀ c ∈ res, GoodMacid total decs utils recall density c
  | 0, _, _, _, _, _, _, h => by simp [macidsLoop] at h
  | fuel + 1, ms, ω, ω', res, hlen, hgood, h => by
    unfold macidsLoop at h
    split at h
    · rename_i hle
      simp only [Option.some.injEq, Except.ok.injEq, Prod.mk.injEq] at h
      obtain ⟨rfl, _⟩ := h
      exact ⟨by omega, hgood⟩
    rename_i hle
    split at h
    · rename_i r1 r2 ω1
      split at h
      · simp at h
      · simp at h
      rename_i a ag ha hag
      split at h
      · simp at h
      · simp at h
      rename_i ds ω3 hds
      split at h
      · simp at h
      · simp at h
      rename_i us ω4 hus
      split at h
      · simp at h
      · simp at h
      rename_i m ω2 hm
      have ra := randint_ok ha
      have rag := randint_ok hag
      obtain ⟨d1, d2⟩ := choices_ok hds
      obtain ⟨u1, u2⟩ := choices_ok hus
      obtain ⟨k1, _⟩ := C81_random_macid ho (show 2 ≤ a by omega) hm
      obtain ⟨b, hb1, hb2⟩ := macid_recall (by simp only; omega) k1 pick tpick
      rw [hb1] at h
      cases b with
      | true =>
        refine macidsLoop_ok ho h2 (by rw [List.length_append, List.length_singleton]; omega) ?_ h
        intro c hc
        rcases List.mem_append.1 hc with hc | hc
        · exact hgood c hc
        · rw [List.mem_singleton.1 hc]
          exact ⟨a, ds, us, ra, by omega, by omega, d2, u2, k1, hb2.1 rfl⟩
      | false => exact macidsLoop_ok ho h2 hlen hgood h
    · simp at h

end Random

/-- **C81** `random_cids` returns `n` CIDs; each has a number of nodes, decisions and utilities in the given ranges, bounds included,
and sufficient recall: no cycle of decisions relying on each other. -/
theorem C81_random_cids {pick : Pick} {ord : SetOrder} (ho : ord.Valid) {tpick : List Node → Nat} {total decs utils : Nat × Nat} (h2 : 2 ≤ total.1)
    {recall : Bool} {density : Rat} {n : Nat} {ω ω' : Draws} {cids : List Macid}
    (h : randomCids pick ord tpick total decs utils recall density n ω = some (.ok (cids, ω'))) :
    cids.length = n ∧ ∀ cid ∈ cids, ∃ n d u, (total.1 ≤ n ∧ n ≤ total.2) ∧ (decs.1 ≤ d ∧ d ≤ decs.2) ∧ (utils.1 ≤ u ∧ u ≤ utils.2) ∧
      IsRandomCid n d u cid ∧ cid.NoRelianceCycle ((List.range d).map (fun i => "D" ++ toString i)) :=
  cidsLoop_ok ho h2 (Nat.zero_le _) (by simp) h

/-- **C81** `random_cids` raises nothing but ValueError. -/
theorem C81_random_cids_error {pick : Pick} {ord : SetOrder} (ho : ord.Valid) {tpick : List Node → Nat} {total decs utils : Nat × Nat} (h2 : 2 ≤ total.1)
    {recall : Bool} {density : Rat} {n : Nat} {ω : Draws} {e : Err}
    (h : randomCids pick ord tpick total decs utils recall density n ω = some (.error e)) : e = .value :=
  cidsLoop_error ho h2 h

/-- **C81** `random_macids` returns `n` MACIDs of one to three agents; the number of nodes is in the given range, bounds included, but
the numbers of decisions and utilities of each agent are below the upper bounds of the given ranges; no agent has a cycle of
decisions relying on each other. -/
theorem C81_random_macids {pick : Pick} {ord : SetOrder} (ho : ord.Valid) {tpick : List Node → Nat} {total decs utils : Nat × Nat} (h2 : 2 ≤ total.1)
    {recall : Bool} {density : Rat} {n : Nat} {ω ω' : Draws} {macids : List Macid}
    (h : randomMacids pick ord tpick total decs utils recall density n ω = some (.ok (macids, ω'))) :
    macids.length = n ∧ ∀ m ∈ macids, ∃ n ds us, (total.1 ≤ n ∧ n ≤ total.2) ∧ ds.length = us.length ∧ (1 ≤ ds.length ∧ ds.length ≤ 3) ∧
      (∀ d ∈ ds, decs.1 ≤ d ∧ d < decs.2) ∧ (∀ u ∈ us, utils.1 ≤ u ∧ u < utils.2) ∧ IsRandomGame ⟨n, ds, us, recall, density, 4⟩ m ∧
      ∀ a l, m.agentDecisions.get? a = some l → m.NoRelianceCycle l :=
  macidsLoop_ok ho h2 (Nat.zero_le _) (by simp) h

/-- the draws of `exTape` give a CID without sufficient recall, which is thrown away; the next draws give D0 → U0 -/
def exCidsTape : Draws := [4, 2, 0] ++ exTape ++ [0, 0, 0, 0, 0, 0, 0, 0]

/-- the CID that is returned -/
def exCid0 : Macid := ⟨⟨["D0", "U0"], [("D0", "U0")]⟩, [(0, ["D0"])], [(0, ["U0"])], [("D0", 0)], [("U0", 0)]⟩

set_option maxRecDepth 100000 in
theorem exCids_run : randomCids (fun _ _ => 0) SetOrder.id (fun _ => 0) (2, 6) (1, 3) (1, 1) true (8 / 15) 1 exCidsTape =
    some (.ok ([exCid0], [])) := by
  decide +kernel

/-- the hypotheses of C81 are met by `random_cids` (and by `random_cid`, which it calls) -/
theorem C81_example_cids : ∃ n d u, (2 ≤ n ∧ n ≤ 6) ∧ (1 ≤ d ∧ d ≤ 3) ∧ (1 ≤ u ∧ u ≤ 1) ∧ IsRandomCid n d u exCid0 :=
  let ⟨n, d, u, h1, h2, h3, h4, _⟩ := (C81_random_cids (fun _ l => .refl l) (by decide) exCids_run).2 exCid0 (by simp)
  ⟨n, d, u, h1, h2, h3, h4⟩

/-- two agents, six nodes -/
def exMacid0 : Macid :=
  ⟨⟨["D^0_0", "U^0_0", "X_0", "U^1_0", "X_1", "D^1_0"],
    [("D^0_0", "U^0_0"), ("D^0_0", "X_0"), ("D^0_0", "U^1_0"), ("X_0", "X_1"), ("D^1_0", "U^1_0"), ("D^1_0", "X_1")]⟩,
    [(0, ["D^0_0"]), (1, ["D^1_0"])], [(0, ["U^0_0"]), (1, ["U^1_0"])], [("D^0_0", 0), ("D^1_0", 1)], [("U^0_0", 0), ("U^1_0", 1)]⟩

set_option maxRecDepth 100000 in
theorem exMacids_run : randomMacids (fun _ _ => 0) SetOrder.id (fun _ => 0) (6, 7) (1, 3) (1, 3) true (2 / 5) 1 ([0, 1, 0, 0, 0, 0] ++ List.range 38) =
    some (.ok ([exMacid0], [])) := by
  decide +kernel

/-- the hypotheses of C81 are met by `random_macids` (and by `random_macid`, which it calls) -/
theorem C81_example_macids : ∃ n ds us, (6 ≤ n ∧ n ≤ 7) ∧ ds.length = us.length ∧ (∀ d ∈ ds, 1 ≤ d ∧ d < 3) ∧
    IsRandomGame ⟨n, ds, us, true, 2 / 5, 4⟩ exMacid0 :=
  let ⟨n, d, u, h1, h2, _, h3, _, h4, _⟩ := (C81_random_macids (fun _ l => .refl l) (by decide) exMacids_run).2 exMacid0 (by simp)
  ⟨n, d, u, h1, h2, h3, h4⟩

end Verif
