import Verif.Lemmas.RandomRecall

/-!
# Random games: names and roles
-/

namespace Verif
namespace Random

open Relation

/-! ### names -/

theorem toList_nat (i : Nat) : (toString i).toList = Nat.toDigits 10 i := by
  simp only [Nat.toString_eq_repr, Nat.toList_repr]

theorem toList_util (a i : Nat) : (utilName a i).toList = 'U' :: '^' :: (Nat.toDigits 10 a ++ '_' :: Nat.toDigits 10 i) := by
  simp [utilName, String.toList_append]

theorem toList_dec (a i : Nat) : (decName a i).toList = 'D' :: '^' :: (Nat.toDigits 10 a ++ '_' :: Nat.toDigits 10 i) := by
  simp [decName, String.toList_append]

theorem toList_chance (i : Nat) : (chanceName i).toList = 'X' :: '_' :: Nat.toDigits 10 i := by
  simp [chanceName, String.toList_append]

theorem digits_inj {i j : Nat} (h : Nat.toDigits 10 i = Nat.toDigits 10 j) : i = j := by
  rw [← Nat.ofDigitChars_ten_toDigits (n := i), h, Nat.ofDigitChars_ten_toDigits]

theorem cut_inj {α : Type} {c : α} : ∀ {l l' r r' : List α}, l ++ c :: r = l' ++ c :: r' → c ∉ l → c ∉ l' → l = l' ∧ r = r'
  | [], [], r, r', h, _, _ => by simpa using h
  | [], x :: l', r, r', h, _, h2 => by
    simp only [List.nil_append, List.cons_append, List.cons.injEq] at h
    simp [h.1] at h2
  | x :: l, [], r, r', h, h1, _ => by
    simp only [List.nil_append, List.cons_append, List.cons.injEq] at h
    simp [h.1] at h1
  | x :: l, y :: l', r, r', h, h1, h2 => by
    simp only [List.cons_append, List.cons.injEq] at h
    obtain ⟨rfl, h⟩ := h
    simp only [List.mem_cons, not_or] at h1 h2
    obtain ⟨rfl, rfl⟩ := cut_inj h h1.2 h2.2
    exact ⟨rfl, rfl⟩

theorem two_inj {a b i j : Nat} (h : Nat.toDigits 10 a ++ '_' :: Nat.toDigits 10 i = Nat.toDigits 10 b ++ '_' :: Nat.toDigits 10 j) :
    a = b ∧ i = j := by
  obtain ⟨h1, h2⟩ := cut_inj h Nat.underscore_not_in_toDigits Nat.underscore_not_in_toDigits
  exact ⟨digits_inj h1, digits_inj h2⟩

theorem util_inj {a b i j : Nat} (h : utilName a i = utilName b j) : a = b ∧ i = j := by
  have := congrArg String.toList h
  rw [toList_util, toList_util] at this
  simp only [List.cons.injEq, true_and] at this
  exact two_inj this

theorem dec_inj {a b i j : Nat} (h : decName a i = decName b j) : a = b ∧ i = j := by
  have := congrArg String.toList h
  rw [toList_dec, toList_dec] at this
  simp only [List.cons.injEq, true_and] at this
  exact two_inj this

theorem chance_inj {i j : Nat} (h : chanceName i = chanceName j) : i = j := by
  have := congrArg String.toList h
  rw [toList_chance, toList_chance] at this
  simp only [List.cons.injEq, true_and] at this
  exact digits_inj this

theorem util_ne_dec {a b i j : Nat} : utilName a i ≠ decName b j := by
  intro h
  have := congrArg String.toList h
  rw [toList_util, toList_dec] at this
  simp at this

theorem util_ne_chance {a i j : Nat} : utilName a i ≠ chanceName j := by
  intro h
  have := congrArg String.toList h
  rw [toList_util, toList_chance] at this
  simp at this

theorem dec_ne_chance {a i j : Nat} : decName a i ≠ chanceName j := by
  intro h
  have := congrArg String.toList h
  rw [toList_dec, toList_chance] at this
  simp at this

/-- the names that are given -/
def Given (x : Node) : Prop := (∃ a i, x = utilName a i) ∨ (∃ a i, x = decName a i) ∨ ∃ i, x = chanceName i

theorem Given.last {x : Node} (h : Given x) : ∃ l i, x.toList = l ++ Nat.toDigits 10 i := by
  rcases h with ⟨a, i, rfl⟩ | ⟨a, i, rfl⟩ | ⟨i, rfl⟩
  · exact ⟨'U' :: '^' :: (Nat.toDigits 10 a ++ ['_']), i, by rw [toList_util]; simp⟩
  · exact ⟨'D' :: '^' :: (Nat.toDigits 10 a ++ ['_']), i, by rw [toList_dec]; simp⟩
  · exact ⟨['X', '_'], i, by rw [toList_chance]; simp⟩

theorem Given.first {x : Node} (h : Given x) : ∃ c l, x.toList = c :: l ∧ c ≠ 'm' := by
  rcases h with ⟨a, i, rfl⟩ | ⟨a, i, rfl⟩ | ⟨i, rfl⟩
  · exact ⟨_, _, toList_util _ _, by decide⟩
  · exact ⟨_, _, toList_dec _ _, by decide⟩
  · exact ⟨_, _, toList_chance _, by decide⟩

theorem namesOk_of_given {g : Graph} (h : ∀ v ∈ g.nodes, Given v) : Macid.NamesOk g := by
  constructor
  · rintro u hu v _ rfl
    obtain ⟨l, i, e⟩ := (h _ hu).last
    have h1 := congrArg List.getLast? e
    rw [String.toList_append, List.getLast?_append, List.getLast?_append, List.getLast?_eq_some_getLast (Nat.toDigits_ne_nil (n := i) (b := 10))] at h1
    have h2 : ("mec" : String).toList.getLast? = some 'c' := by decide
    rw [h2] at h1
    simp only [Option.some_or, Option.some.injEq] at h1
    have := Nat.isDigit_of_mem_toDigits (b := 10) (n := i) (by decide) (by decide) (List.getLast_mem Nat.toDigits_ne_nil)
    rw [← h1] at this
    exact absurd this (by decide)
  · rintro v hv ⟨_, h2⟩
    obtain ⟨c, l, e, hc⟩ := (h _ hv).first
    rw [e] at h2
    simp only [List.take_succ_cons, List.cons.injEq] at h2
    exact hc h2.1

/-! ### dictionaries -/

theorem set_new {K V : Type} [DecidableEq K] {d : Dict K V} {k : K} {v : V} (h : k ∉ d.keys) : d.set k v = d ++ [(k, v)] := by
  induction d with
  | nil => rfl
  | cons p d ih =>
    obtain ⟨k', v'⟩ := p
    simp only [Dict.keys, List.map_cons, List.mem_cons, not_or] at h
    simp only [Dict.set, List.cons_append]
    rw [if_neg (fun e => h.1 e.symm), ih h.2]

theorem update_new : ∀ {l : List (Node × Node)} {d : Dict Node Node}, ((d ++ l).map (·.1)).Nodup → update d l = d ++ l
  | [], d, _ => by simp [update]
  | p :: l, d, h => by
    have hk : p.1 ∉ Dict.keys d := by
      rw [List.map_append, List.nodup_append] at h
      intro hm
      exact h.2.2 _ hm p.1 (by simp) rfl
    have : update d (p :: l) = update (d.set p.1 p.2) l := rfl
    rw [this, set_new hk, update_new (by simpa using h)]
    simp

theorem keys_renames (name : Nat → Node) (l : List Node) : (renames name l).map (·.1) = l := by
  unfold renames
  rw [List.map_map]
  have : ((fun x : Node × Node => x.1) ∘ fun p : Node × Nat => (p.1, name p.2)) = Prod.fst := rfl
  rw [this]
  simp

theorem vals_renames (name : Nat → Node) (l : List Node) : (renames name l).map (·.2) = (List.range l.length).map name := by
  unfold renames
  rw [List.map_map]
  have : ((fun x : Node × Node => x.2) ∘ fun p : Node × Nat => (p.1, name p.2)) = name ∘ Prod.snd := rfl
  rw [this, ← List.map_map]
  simp [List.range_eq_range']

/-! ### roles -/

/-- the renamings for agents with utilities and decisions -/
def entries : Nat → List (List Node × List Node) → List (Node × Node)
  | _, [] => []
  | a, (us, ds) :: rest => renames (utilName a) us ++ renames (decName a) ds ++ entries (a + 1) rest

/-- the nodes with a role -/
def chosen (l : List (List Node × List Node)) : List Node := l.flatMap (fun p => p.1 ++ p.2)

theorem keys_entries : ∀ (a : Nat) (l : List (List Node × List Node)), (entries a l).map (·.1) = chosen l
  | _, [] => rfl
  | a, (us, ds) :: rest => by
    simp only [entries, List.map_append, keys_renames, keys_entries, chosen, List.flatMap_cons]

theorem vals_entries : ∀ (a : Nat) (l : List (List Node × List Node)) (x : Node), x ∈ (entries a l).map (·.2) →
    ∃ b i, a ≤ b ∧ (x = utilName b i ∨ x = decName b i)
  | _, [], x, h => by simp [entries] at h
  | a, (us, ds) :: rest, x, h => by
    simp only [entries, List.map_append, vals_renames, List.mem_append, List.mem_map, List.mem_range] at h
    rcases h with (⟨i, _, rfl⟩ | ⟨i, _, rfl⟩) | h
    · exact ⟨a, i, le_rfl, Or.inl rfl⟩
    · exact ⟨a, i, le_rfl, Or.inr rfl⟩
    · obtain ⟨b, i, h1, h2⟩ := vals_entries (a + 1) rest x (by simpa using h)
      exact ⟨b, i, by omega, h2⟩

theorem nodup_vals : ∀ (a : Nat) (l : List (List Node × List Node)), ((entries a l).map (·.2)).Nodup
  | _, [] => by simp [entries]
  | a, (us, ds) :: rest => by
    simp only [entries, List.map_append, vals_renames]
    refine List.nodup_append.2 ⟨List.nodup_append.2 ⟨?_, ?_, ?_⟩, nodup_vals (a + 1) rest, ?_⟩
    · exact List.nodup_range.map (fun i j e => (util_inj e).2)
    · exact List.nodup_range.map (fun i j e => (dec_inj e).2)
    · intro x hx y hy e
      simp only [List.mem_map] at hx hy
      obtain ⟨i, _, rfl⟩ := hx
      obtain ⟨j, _, rfl⟩ := hy
      exact util_ne_dec e
    · intro x hx y hy e
      obtain ⟨b, j, hb, hy⟩ := vals_entries (a + 1) rest y hy
      simp only [List.mem_append, List.mem_map] at hx
      rcases hx with ⟨i, _, rfl⟩ | ⟨i, _, rfl⟩ <;> rcases hy with rfl | rfl
      · have := (util_inj e).1; omega
      · exact util_ne_dec e
      · exact util_ne_dec e.symm
      · have := (dec_inj e).1; omega

/-- the dictionary of the decisions or of the utilities -/
def rolesOf (name : Nat → Nat → Node) (sel : List Node × List Node → List Node) : Nat → List (List Node × List Node) → Dict Agent (List Node)
  | _, [] => []
  | a, p :: rest => (a, (List.range (sel p).length).map (name a)) :: rolesOf name sel (a + 1) rest

/-- what the loop over the agents has found -/
structure Chosen (g : Graph) (l : List (List Node × List Node)) : Prop where
  nodup : (chosen l).Nodup
  desc : ∀ p ∈ l, ∀ d ∈ p.2, ∃ u ∈ p.1, g.Desc d u
  barren : ∀ p ∈ l, ∀ u ∈ p.1, u ∈ g.nodes ∧ ∀ c, ¬ g.Edge u c

theorem mem_possible {g : Graph} (hw : g.WF) {utils used : List Node} {v : Node} (h : v ∈ possibleDecs g utils used) :
    (∃ u ∈ utils, g.Desc v u) ∧ v ∉ used := by
  unfold possibleDecs at h
  simp only [List.mem_filter, List.mem_dedup, List.mem_flatMap, decide_eq_true_eq] at h
  obtain ⟨⟨u, hu, hm⟩, h1, h2⟩ := h
  obtain ⟨w, hw', hd⟩ := (Graph.mem_ancestorsOf hw).1 hm
  simp only [List.mem_singleton] at hw'
  subst hw'
  rcases Relation.reflTransGen_iff_eq_or_transGen.1 hd with rfl | hd
  · exact absurd hu h1
  · exact ⟨⟨_, hu, hd⟩, h2⟩

theorem nodup_possible {g : Graph} {utils used : List Node} : (possibleDecs g utils used).Nodup :=
  (List.nodup_dedup _).filter _

theorem Desc.child {g : Graph} {a b : Node} (h : g.Desc a b) : ∃ c, g.Edge a c := by
  obtain ⟨c, hc, _⟩ := TransGen.head'_iff.1 h
  exact ⟨c, hc⟩

theorem keys_lt {name : Nat → Nat → Node} {sel : List Node × List Node → List Node} : ∀ {a : Nat} {l : List (List Node × List Node)} {k : Nat},
    k ∈ (rolesOf name sel a l).keys → a ≤ k ∧ k < a + l.length
  | _, [], k, h => by simp [rolesOf, Dict.keys] at h
  | a, p :: rest, k, h => by
    simp only [rolesOf, Dict.keys, List.map_cons, List.mem_cons] at h
    rcases h with rfl | h
    · simp
    · have := keys_lt (a := a + 1) (l := rest) h
      simp only [List.length_cons]
      omega

theorem rolesOf_append {name : Nat → Nat → Node} {sel : List Node × List Node → List Node} {p : List Node × List Node} :
    ∀ {a : Nat} {l : List (List Node × List Node)},
      rolesOf name sel a (l ++ [p]) = rolesOf name sel a l ++ [(a + l.length, (List.range (sel p).length).map (name (a + l.length)))]
  | a, [] => by simp [rolesOf]
  | a, q :: l => by
    simp only [List.cons_append, rolesOf, rolesOf_append, List.length_cons]
    simp only [show a + 1 + l.length = a + (l.length + 1) by omega]

theorem entries_append {p : List Node × List Node} : ∀ {a : Nat} {l : List (List Node × List Node)},
      entries a (l ++ [p]) = entries a l ++ (renames (utilName (a + l.length)) p.1 ++ renames (decName (a + l.length)) p.2)
  | a, [] => by simp [entries]
  | a, (us, ds) :: l => by
    simp only [List.cons_append, entries, entries_append, List.length_cons, List.append_assoc]
    simp only [show a + 1 + l.length = a + (l.length + 1) by omega]

/-- the loop over the agents -/
theorem assign_ok {g : Graph} (hw : g.WF) : ∀ {rest : List (Nat × List Node)} {done : List (List Node × List Node)} {ro ro' : Roles} {ω ω' : Draws},
    Chosen g done → (done.flatMap (·.1) ++ rest.flatMap (·.2)).Nodup → (∀ q ∈ rest, ∀ u ∈ q.2, u ∈ g.nodes ∧ ∀ c, ¬ g.Edge u c) →
    ro.used = done.flatMap (·.2) → ro.decs = rolesOf decName (·.2) 0 done → ro.utils = rolesOf utilName (·.1) 0 done → ro.names = entries 0 done →
    assign g done.length rest ro ω = some (.ok (some ro', ω')) →
    ∃ more : List (List Node), more.map List.length = rest.map (·.1) ∧
      Chosen g (done ++ (rest.map (·.2)).zip more) ∧ ro'.decs = rolesOf decName (·.2) 0 (done ++ (rest.map (·.2)).zip more) ∧
      ro'.utils = rolesOf utilName (·.1) 0 (done ++ (rest.map (·.2)).zip more) ∧ ro'.names = entries 0 (done ++ (rest.map (·.2)).zip more)
  | [], done, ro, ro', ω, ω', hc, _, _, e1, e2, e3, e4, h => by
    simp only [assign, Option.some.injEq, Except.ok.injEq, Prod.mk.injEq] at h
    obtain ⟨rfl, rfl⟩ := h
    exact ⟨[], by simp, by simpa using hc, by simpa using e2, by simpa using e3, by simpa using e4⟩
  | (num, utils) :: rest, done, ro, ro', ω, ω', hc, hn, hb, e1, e2, e3, e4, h => by
    unfold assign at h
    dsimp only at h
    split at h
    · simp at h
    split at h
    · simp at h
    · simp at h
    rename_i decs ω1 hs
    obtain ⟨hl, r0, hperm⟩ := sample_ok hs
    have hposs : ∀ d ∈ decs, (∃ u ∈ utils, g.Desc d u) ∧ d ∉ ro.used := fun d hd =>
      mem_possible hw (hperm.mem_iff.1 (List.mem_append_left _ hd))
    have hdn : decs.Nodup := (List.nodup_append.1 (hperm.nodup_iff.2 nodup_possible)).1
    have hbu : ∀ u ∈ utils, u ∈ g.nodes ∧ ∀ c, ¬ g.Edge u c := hb (num, utils) (by simp)
    have hc' : Chosen g (done ++ [(utils, decs)]) := by
      have hun : utils.Nodup := by
        have := (List.nodup_append.1 hn).2.1
        rw [List.flatMap_cons] at this
        exact (List.nodup_append.1 this).1
      refine ⟨?_, ?_, ?_⟩
      · unfold chosen
        rw [List.flatMap_append, List.flatMap_cons, List.flatMap_nil, List.append_nil]
        refine List.nodup_append.2 ⟨hc.nodup, List.nodup_append.2 ⟨hun, hdn, ?_⟩, ?_⟩
        · rintro x hx y hy rfl
          obtain ⟨⟨u, _, hd⟩, _⟩ := hposs x hy
          obtain ⟨c, he⟩ := Desc.child hd
          exact (hbu x hx).2 c he
        · rintro x hx y hy rfl
          simp only [List.mem_flatMap, List.mem_append] at hx hy
          obtain ⟨p, hp, hx⟩ := hx
          rcases hx with hx | hx <;> rcases hy with hy | hy
          · exact (List.nodup_append.1 hn).2.2 x (List.mem_flatMap.2 ⟨p, hp, hx⟩) x (by
              rw [List.flatMap_cons]
              exact List.mem_append_left _ hy) rfl
          · obtain ⟨⟨u, _, hd⟩, _⟩ := hposs x hy
            obtain ⟨c, he⟩ := Desc.child hd
            exact (hc.barren p hp x hx).2 c he
          · obtain ⟨u, _, hd⟩ := hc.desc p hp x hx
            obtain ⟨c, he⟩ := Desc.child hd
            exact (hbu x hy).2 c he
          · refine (hposs x hy).2 ?_
            rw [e1]
            exact List.mem_flatMap.2 ⟨p, hp, hx⟩
      · intro p hp d hd
        simp only [List.mem_append, List.mem_singleton] at hp
        rcases hp with hp | rfl
        · exact hc.desc p hp d hd
        · exact (hposs d hd).1
      · intro p hp u hu
        simp only [List.mem_append, List.mem_singleton] at hp
        rcases hp with hp | rfl
        · exact hc.barren p hp u hu
        · exact hbu u hu
    have hdecs : ∀ (name : Nat → Nat → Node) (sel : List Node × List Node → List Node), done.length ∉ (rolesOf name sel 0 done).keys := by
      intro name sel hk
      have := keys_lt hk
      omega
    have hkeys : ((entries 0 (done ++ [(utils, decs)])).map (·.1)).Nodup := by
      rw [keys_entries]
      exact hc'.nodup
    rw [entries_append, Nat.zero_add] at hkeys
    have hstep := assign_ok hw (rest := rest) (done := done ++ [(utils, decs)]) (ω := ω1) (ω' := ω') (ro' := ro')
      (ro := ⟨ro.used ++ decs, ro.decs.set done.length ((renames (decName done.length) decs).map (·.2)),
        ro.utils.set done.length ((renames (utilName done.length) utils).map (·.2)),
        update (update ro.names (renames (utilName done.length) utils)) (renames (decName done.length) decs)⟩)
      hc' (by simpa [List.flatMap_append] using hn) (fun q hq => hb q (List.mem_cons_of_mem _ hq))
      (by simp [e1, List.flatMap_append])
      (by
        simp only
        rw [e2, set_new (hdecs _ _), rolesOf_append, vals_renames, Nat.zero_add])
      (by
        simp only
        rw [e3, set_new (hdecs _ _), rolesOf_append, vals_renames, Nat.zero_add])
      (by
        simp only
        rw [e4, entries_append, Nat.zero_add]
        rw [update_new, update_new]
        · simp
        · refine List.Nodup.sublist ?_ hkeys
          rw [← List.append_assoc, List.map_append (l₁ := _ ++ _)]
          exact List.sublist_append_left _ _
        · rw [update_new]
          · simpa using hkeys
          · refine List.Nodup.sublist ?_ hkeys
            rw [← List.append_assoc, List.map_append (l₁ := _ ++ _)]
            exact List.sublist_append_left _ _)
      (by simpa using h)
    obtain ⟨more, m1, m2, m3, m4, m5⟩ := hstep
    refine ⟨decs :: more, by simp [hl, m1], ?_, ?_, ?_, ?_⟩
    · simpa using m2
    · simpa using m3
    · simpa using m4
    · simpa using m5

end Random
end Verif
