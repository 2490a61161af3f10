import Verif.Spec.Cpd
import Verif.Lemmas.Dict
import Verif.Lemmas.Trails
import Mathlib.Tactic.Linarith
import Mathlib.Algebra.BigOperators.Ring.List
import Mathlib.Tactic.FieldSimp
import Mathlib.Tactic.Ring

/-!
# Lemmas about CPD construction
-/

namespace Verif

/-! ### itertools.product -/

theorem mem_product {α : Type} {ls : List (List α)} {xs : List α} :
    xs ∈ product ls ↔ List.Forall₂ (· ∈ ·) xs ls := by
  induction ls generalizing xs with
  | nil => simp [product]
  | cons l ls ih =>
    simp only [product, List.mem_flatMap, List.mem_map]
    constructor
    · rintro ⟨x, hx, ys, hys, rfl⟩
      exact List.Forall₂.cons hx (ih.1 hys)
    · intro h
      cases h with
      | cons hx h => exact ⟨_, hx, _, ih.2 h, rfl⟩

theorem length_product {α : Type} (ls : List (List α)) :
    (product ls).length = (ls.map List.length).prod := by
  induction ls with
  | nil => rfl
  | cons l ls ih =>
    simp only [product, List.length_flatMap, List.length_map, ih, List.map_cons, List.prod_cons]
    simp

theorem nodup_product {α : Type} {ls : List (List α)} (h : ∀ l ∈ ls, l.Nodup) :
    (product ls).Nodup := by
  induction ls with
  | nil => simp [product]
  | cons l ls ih =>
    simp only [product]
    have h1 := h l (by simp)
    have h2 := ih (fun m hm => h m (by simp [hm]))
    rw [List.nodup_flatMap]
    refine ⟨fun x _ => h2.map (fun a b hab => by simpa using hab), ?_⟩
    refine List.Pairwise.imp ?_ h1
    intro a b hab
    simp only [Function.onFun, List.disjoint_left, List.mem_map]
    rintro _ ⟨_, _, rfl⟩ ⟨_, _, h⟩
    exact hab (by simpa using (List.cons.inj h).1.symm)

/-! ### Mixed radix encoding -/

/-- the number whose digits are the positions of the values -/
def enc : List (List Outcome) → List Outcome → Nat
  | d :: ds, x :: xs => d.idxOf x + d.length * enc ds xs
  | _, _ => 0

theorem enc_lt {ds : List (List Outcome)} {xs : List Outcome} (h : List.Forall₂ (· ∈ ·) xs ds) :
    enc ds xs < (ds.map List.length).prod := by
  induction h with
  | nil => simp [enc]
  | @cons x d xs ds hx _ ih =>
    simp only [enc, List.map_cons, List.prod_cons]
    have := List.idxOf_lt_length_iff.2 hx
    nlinarith

theorem enc_inj {ds : List (List Outcome)} {xs ys : List Outcome}
    (hx : List.Forall₂ (· ∈ ·) xs ds) (hy : List.Forall₂ (· ∈ ·) ys ds)
    (h : enc ds xs = enc ds ys) : xs = ys := by
  induction hx generalizing ys with
  | nil => cases hy; rfl
  | @cons x d xs ds hx _ ih =>
    cases hy with
    | @cons y _ ys _ hy hys =>
      simp only [enc] at h
      have h1 := List.idxOf_lt_length_iff.2 hx
      have h2 := List.idxOf_lt_length_iff.2 hy
      have e1 : d.idxOf x = d.idxOf y := by
        have := congrArg (· % d.length) h
        simpa [Nat.add_mul_mod_self_left, Nat.mod_eq_of_lt h1, Nat.mod_eq_of_lt h2] using this
      have hp : 0 < d.length := by omega
      have e2 : enc ds xs = enc ds ys := by
        rw [e1] at h
        exact Nat.eq_of_mul_eq_mul_left hp (by omega)
      rw [ih hys e2]
      have := (List.idxOf_inj hx).1 e1
      rw [this]

theorem enc_surj {ds : List (List Outcome)} (hn : ∀ d ∈ ds, d.Nodup) {i : Nat}
    (hi : i < (ds.map List.length).prod) :
    ∃ xs, List.Forall₂ (· ∈ ·) xs ds ∧ enc ds xs = i := by
  induction ds generalizing i with
  | nil => exact ⟨[], List.Forall₂.nil, by simp at hi; simp [enc, hi]⟩
  | cons d ds ih =>
    simp only [List.map_cons, List.prod_cons] at hi
    have hp : 0 < d.length := by
      rcases Nat.eq_zero_or_pos d.length with h | h
      · rw [h] at hi; omega
      · exact h
    have h1 : i % d.length < d.length := Nat.mod_lt _ hp
    obtain ⟨xs, hxs, e⟩ := ih (fun d hd => hn d (by simp [hd])) (i := i / d.length)
      (Nat.div_lt_of_lt_mul hi)
    refine ⟨d[i % d.length] :: xs, List.Forall₂.cons (List.getElem_mem _) hxs, ?_⟩
    simp only [enc, e]
    rw [List.Nodup.idxOf_getElem (hn d (by simp))]
    exact Nat.mod_add_div _ _

theorem arg2idxAux_enc {ps : List Node} {ds : List (List Outcome)} {xs : List Outcome} {pv : PV}
    (hx : List.Forall₂ (· ∈ ·) xs ds) (hp : List.Forall₂ (fun p x => pv p = some x) ps xs)
    (r : Nat) : arg2idxAux (ps.zip ds) r pv = .ok (r * enc ds xs) := by
  induction hx generalizing ps r with
  | nil => cases hp; simp [arg2idxAux, enc]
  | @cons x d xs ds hx _ ih =>
    cases hp with
    | @cons p _ ps _ hp hps =>
      simp only [List.zip_cons_cons, arg2idxAux, hp, hx, if_true, ih hps, enc]
      congr 1
      ring

theorem pvOf_forall₂ {ps : List Node} {xs : List Outcome} (hn : ps.Nodup)
    (hl : ps.length = xs.length) : List.Forall₂ (fun p x => pvOf ps xs p = some x) ps xs := by
  induction ps generalizing xs with
  | nil => cases xs with
    | nil => exact List.Forall₂.nil
    | cons _ _ => simp at hl
  | cons p ps ih =>
    cases xs with
    | nil => simp at hl
    | cons x xs =>
      have hn' := List.nodup_cons.1 hn
      refine List.Forall₂.cons (by simp [pvOf, Dict.get?]) ?_
      have := ih hn'.2 (xs := xs) (by simpa using hl)
      refine (List.forall₂_iff_get.2 ⟨by simpa using hl, ?_⟩)
      intro i h1 h2
      have h3 := (List.forall₂_iff_get.1 this).2 i h1 h2
      have hne : p ≠ ps.get ⟨i, h1⟩ := by
        intro h; exact hn'.1 (h ▸ List.get_mem _ _)
      simp only [pvOf, List.zip_cons_cons, Dict.get?] at h3 ⊢
      rw [if_neg hne]; exact h3

theorem arg2idx_enc {ps : List Node} {ds : List (List Outcome)} {xs : List Outcome} (hn : ps.Nodup)
    (hl : ps.length = ds.length) (hx : List.Forall₂ (· ∈ ·) xs ds) :
    arg2idx ps ds (pvOf ps xs) = .ok (enc ds xs) := by
  unfold arg2idx
  rw [arg2idxAux_enc hx (pvOf_forall₂ hn (by rw [hl, hx.length_eq])) 1, one_mul]

/-! ### lookups in a zipped table -/

theorem get?_zip {α β : Type} [DecidableEq α] {ks : List α} {vs : List β} (hn : ks.Nodup)
    {i : Nat} (h1 : i < ks.length) (h2 : i < vs.length) :
    Dict.get? (ks.zip vs) ks[i] = some vs[i] := by
  induction ks generalizing vs i with
  | nil => simp at h1
  | cons k ks ih =>
    cases vs with
    | nil => simp at h2
    | cons v vs =>
      have hn' := List.nodup_cons.1 hn
      cases i with
      | zero => simp [Dict.get?]
      | succ i =>
        simp only [List.zip_cons_cons, Dict.get?, List.getElem_cons_succ]
        rw [if_neg (by intro h; exact hn'.1 (h ▸ List.getElem_mem _))]
        exact ih hn'.2 (by simpa using h1) (by simpa using h2)

theorem get?_zip_map {α β : Type} [DecidableEq α] {ks : List α} {h : α → β} {k : α} (hk : k ∈ ks) :
    Dict.get? (ks.zip (ks.map h)) k = some (h k) := by
  induction ks with
  | nil => simp at hk
  | cons a ks ih =>
    simp only [List.map_cons, List.zip_cons_cons, Dict.get?]
    by_cases h' : a = k
    · simp [h']
    · rw [if_neg h']
      exact ih (by rcases List.mem_cons.1 hk with h | h; exact absurd h.symm h'; exact h)

theorem mapPy_map {α β : Type} {f : α → Py β} {h : α → β} {xs : List α}
    (hf : ∀ x ∈ xs, f x = .ok (h x)) : mapPy f xs = .ok (xs.map h) := by
  rw [mapPy_ok_iff, List.forall₂_map_right_iff]
  exact List.forall₂_same.2 hf

theorem mapPy_error {α β : Type} {f : α → Py β} {xs : List α} {e : Err}
    (h : mapPy f xs = .error e) : ∃ x ∈ xs, f x = .error e := by
  induction xs with
  | nil => simp [mapPy] at h
  | cons x xs ih =>
    unfold mapPy at h
    cases hx : f x with
    | error e' => rw [hx] at h; exact ⟨x, by simp, by simp at h; rw [hx, h]⟩
    | ok y =>
      rw [hx] at h
      cases hm : mapPy f xs with
      | error e' =>
        rw [hm] at h
        obtain ⟨z, hz, e2⟩ := ih (by rw [hm]; simpa using h)
        exact ⟨z, by simp [hz], e2⟩
      | ok ys => rw [hm] at h; simp at h

theorem mapPy_error_of {α β : Type} {f : α → Py β} {xs : List α} {x : α} {e : Err} (hx : x ∈ xs)
    (he : f x = .error e) : ∃ e', mapPy f xs = .error e' := by
  cases h : mapPy f xs with
  | error e' => exact ⟨e', rfl⟩
  | ok ys =>
    exfalso
    rw [mapPy_ok_iff] at h
    induction h with
    | nil => simp at hx
    | cons h1 _ ih =>
      rcases List.mem_cons.1 hx with rfl | hx
      · rw [he] at h1; simp at h1
      · exact ih hx

/-! ### parent domains -/

theorem domOf_ok {dom : Dict Node (List Outcome)} {p : Node} {d : List Outcome} :
    domOf dom p = .ok d ↔ dom.get? p = some d := by
  unfold domOf
  cases dom.get? p <;> simp

theorem domOf_error {dom : Dict Node (List Outcome)} {p : Node} {e : Err} :
    domOf dom p = .error e ↔ dom.get? p = none ∧ e = .parentsNotReady := by
  unfold domOf
  cases dom.get? p <;> simp [eq_comm]

theorem parentDoms_ok {ps : List Node} {dom : Dict Node (List Outcome)} {ds : List (List Outcome)} :
    parentDoms ps dom = .ok ds ↔ List.Forall₂ (fun p d => dom.get? p = some d) ps ds := by
  unfold parentDoms
  rw [mapPy_ok_iff]
  constructor <;> intro h <;> refine h.imp (fun p d hpd => ?_)
  · exact domOf_ok.1 hpd
  · exact domOf_ok.2 hpd

theorem parentDoms_err {ps : List Node} {dom : Dict Node (List Outcome)} {p : Node} (hp : p ∈ ps)
    (h : dom.get? p = none) : parentDoms ps dom = .error .parentsNotReady := by
  unfold parentDoms
  obtain ⟨e, he⟩ := mapPy_error_of (f := domOf dom) hp (domOf_error.2 ⟨h, rfl⟩)
  obtain ⟨q, _, hq⟩ := mapPy_error he
  rw [he, (domOf_error.1 hq).2]

/-! ### completing a dictionary -/

theorem keys_filterMap_given {d : Dict Outcome (Option Rat)} (hn : d.keys.Nodup) (x : Outcome) :
    Dict.get? (d.filterMap (fun p => p.2.map (fun v => (p.1, v)))) x = given d x := by
  induction d with
  | nil => rfl
  | cons p d ih =>
    obtain ⟨k, v⟩ := p
    have hn' := List.nodup_cons.1 (show (k :: Dict.keys d).Nodup from hn)
    have ih := ih hn'.2
    cases v with
    | none =>
      simp only [List.filterMap_cons, Option.map_none, ih, given, Dict.get?]
      by_cases h : k = x
      · subst h
        rw [if_pos rfl, Dict.get?_none.2 hn'.1]; rfl
      · rw [if_neg h]
    | some r =>
      simp only [List.filterMap_cons, Option.map_some, Dict.get?, given]
      by_cases h : k = x
      · simp [h]
      · simp only [if_neg h]; exact ih

theorem sum_filterMap_given (d : Dict Outcome (Option Rat)) :
    ((d.filterMap (fun p => p.2.map (fun v => (p.1, v)))).map (·.2)).sum =
      (d.map (fun p => p.2.getD 0)).sum := by
  induction d with
  | nil => rfl
  | cons p d ih =>
    obtain ⟨k, v⟩ := p
    cases v with
    | none => simp [ih]
    | some r => simp [ih]

theorem get?_append {K V : Type} [DecidableEq K] (d e : Dict K V) (k : K) :
    Dict.get? (d ++ e) k = (Dict.get? d k).or (Dict.get? e k) := by
  induction d with
  | nil => simp [Dict.get?]
  | cons p d ih =>
    obtain ⟨k', v⟩ := p
    simp only [List.cons_append, Dict.get?]
    split
    · rfl
    · exact ih

theorem get?_map_pair {K V : Type} [DecidableEq K] {xs : List K} {h : K → V} {k : K} :
    Dict.get? (xs.map (fun x => (x, h x))) k = if k ∈ xs then some (h k) else none := by
  induction xs with
  | nil => rfl
  | cons x xs ih =>
    simp only [List.map_cons, Dict.get?, ih, List.mem_cons]
    by_cases h1 : x = k
    · simp [h1]
    · simp [h1, Ne.symm h1]

theorem completeProb_get? {domain : List Outcome} {d : Dict Outcome (Option Rat)}
    (hn : d.keys.Nodup) (hd : domain.Nodup) (x : Outcome) :
    (completeProb domain d).get? x =
      match given d x with
      | some p => some p
      | none => if x ∈ domain then some ((1 - givenMass d) / (unspecified domain d).length) else none := by
  have hfil : (domain.dedup.filter (fun x => decide (x ∉ Dict.keys (d.filterMap
      (fun p => p.2.map (fun v => (p.1, v))))))) = unspecified domain d := by
    unfold unspecified
    rw [hd.dedup]
    apply List.filter_congr
    intro y _
    have := keys_filterMap_given hn y
    have h2 := (Dict.get?_none (k := y) (d := (d.filterMap (fun p => p.2.map (fun v => (p.1, v))))))
    rw [this] at h2
    cases hg : given d y with
    | none => simpa using h2.1 hg
    | some r => 
      rw [hg] at h2
      simpa using h2
  simp only [completeProb, get?_append, keys_filterMap_given hn, hfil, sum_filterMap_given]
  cases h : given d x with
  | some p => simp
  | none =>
    simp only [Option.none_or]
    rw [get?_map_pair]
    simp [unspecified, h, givenMass]

theorem column_ok {domain : List Outcome} {d : Dict Outcome (Option Rat)}
    (hn : d.keys.Nodup) (hd : domain.Nodup) :
    column domain d = .ok (domain.map (fun x => (given d x).getD
      ((1 - givenMass d) / (unspecified domain d).length))) := by
  unfold column
  apply mapPy_map
  intro x hx
  rw [Dict.get_ok, completeProb_get? hn hd]
  cases h : given d x with
  | some p => rfl
  | none => simp [hx]

/-! ### construction -/

theorem mkCpd_ok_iff {kind : CpdKind} {v : Node} {f : Func} {force : Option (List Outcome)}
    {ps : List Node} {dom : Dict Node (List Outcome)} {card : Node → Py Nat} {c : Cpd} :
    mkCpd kind v f force ps dom card = .ok c ↔
      ∃ ds possible domain cards cols, parentDoms ps dom = .ok ds ∧
        possibleValues f ((product ds).map (pvOf ps)) = .ok possible ∧
        chooseDomain force possible = .ok domain ∧ mapPy card ps = .ok cards ∧
        mapPy (colFor f domain) ((product ds).map (pvOf ps)) = .ok cols ∧
        cols.all colClose = true ∧ cols.all colRange = true ∧ cols.length = cards.prod ∧
        domain.Nodup ∧ c = ⟨v, domain, ps, cards, cols, kind, f, force⟩ := by
  unfold mkCpd parentValues
  cases h1 : parentDoms ps dom with
  | error e => simp
  | ok ds =>
    simp only
    cases h2 : possibleValues f ((product ds).map (pvOf ps)) with
    | error e => simp [h2]
    | ok possible =>
      simp only
      cases h3 : chooseDomain force possible with
      | error e => simp [h2, h3]
      | ok domain =>
        simp only
        cases h4 : mapPy card ps with
        | error e => simp
        | ok cards =>
          simp only
          cases h5 : mapPy (colFor f domain) ((product ds).map (pvOf ps)) with
          | error e => simp [h2, h3, h5]
          | ok cols =>
            simp only
            constructor
            · intro h
              split at h
              · simp at h
              · split at h
                · simp at h
                · split at h
                  · simp at h
                  · split at h
                    · simp at h
                    · simp only [Except.ok.injEq] at h
                      rename_i a b c d
                      refine ⟨ds, possible, domain, cards, cols, rfl, h2, h3, rfl, h5, ?_, ?_, ?_, ?_, h.symm⟩
                      · simpa using a
                      · simpa using b
                      · exact not_not.1 c
                      · exact not_not.1 d
            · rintro ⟨ds', p', d', c', k', e1, e2, e3, e4, e5, a, b, c, d, rfl⟩
              cases e1; rw [h2] at e2; cases e2; rw [h3] at e3; cases e3; cases e4
              rw [h5] at e5; cases e5
              simp [a, b, c, d]

theorem stochasticFunction_ok {f : Func} {pv : PV} {d : Dict Outcome (Option Rat)} :
    stochasticFunction f pv = .ok d ↔ Returns f pv d := by
  unfold stochasticFunction Returns
  cases f pv with
  | error e => simp
  | ok r => cases r <;> simp [eq_comm]

theorem Returns.nodup {f : Func} {pv : PV} {d : Dict Outcome (Option Rat)} (hf : DictOk f)
    (h : Returns f pv d) : d.keys.Nodup := by
  rcases h with h | ⟨o, _, rfl⟩
  · exact hf pv d h
  · simp [Dict.keys]

theorem forall₂_doms {ps : List Node} {dom : Dict Node (List Outcome)} {ds : List (List Outcome)}
    (h : List.Forall₂ (fun p d => dom.get? p = some d) ps ds) :
    ds = ps.map (fun p => (dom.get? p).getD []) := by
  induction h with
  | nil => rfl
  | cons h _ ih => simp [h, ← ih]

theorem inst_iff {ps : List Node} {dom : Dict Node (List Outcome)} {ds : List (List Outcome)}
    (h : List.Forall₂ (fun p d => dom.get? p = some d) ps ds) {vals : List Outcome} :
    vals ∈ product ds ↔ Instantiation ps dom vals := by
  rw [mem_product]
  unfold Instantiation
  induction h generalizing vals with
  | nil => constructor <;> intro h <;> cases h <;> exact List.Forall₂.nil
  | @cons p d ps ds h _ ih =>
    constructor
    · intro hv
      cases hv with
      | cons a b => exact List.Forall₂.cons ⟨d, h, a⟩ (ih.1 b)
    · intro hv
      cases hv with
      | cons a b =>
        obtain ⟨d', e, hm⟩ := a
        rw [h] at e
        cases e
        exact List.Forall₂.cons hm (ih.2 b)

theorem mapPy_eq_map {α β : Type} {f : α → Py β} (dflt : β) {xs : List α} {ys : List β}
    (h : mapPy f xs = .ok ys) :
    ys = xs.map (fun x => match f x with | .ok y => y | .error _ => dflt) := by
  rw [mapPy_ok_iff] at h
  induction h with
  | nil => rfl
  | cons h _ ih => simp only [List.map_cons, h, ← ih]

theorem mapPy_mem {α β : Type} {f : α → Py β} {xs : List α} {ys : List β}
    (h : mapPy f xs = .ok ys) {x : α} (hx : x ∈ xs) : ∃ y ∈ ys, f x = .ok y := by
  rw [mapPy_ok_iff] at h
  induction h with
  | nil => simp at hx
  | cons h _ ih =>
    rcases List.mem_cons.1 hx with rfl | hx
    · exact ⟨_, by simp, h⟩
    · obtain ⟨y, hy, e⟩ := ih hx
      exact ⟨y, by simp [hy], e⟩

theorem mapPy_mem' {α β : Type} {f : α → Py β} {xs : List α} {ys : List β}
    (h : mapPy f xs = .ok ys) {y : β} (hy : y ∈ ys) : ∃ x ∈ xs, f x = .ok y := by
  rw [mapPy_ok_iff] at h
  induction h with
  | nil => simp at hy
  | cons h _ ih =>
    rcases List.mem_cons.1 hy with rfl | hy
    · exact ⟨_, by simp, h⟩
    · obtain ⟨x, hx, e⟩ := ih hy
      exact ⟨x, by simp [hx], e⟩

/-- The entries of a constructed CPD. -/
theorem mkCpd_col {kind : CpdKind} {v : Node} {f : Func} {force : Option (List Outcome)}
    {ps : List Node} {dom : Dict Node (List Outcome)} {card : Node → Py Nat} {c : Cpd}
    (h : mkCpd kind v f force ps dom card = .ok c) (hf : DictOk f) {vals : List Outcome}
    (hv : Instantiation ps dom vals) :
    ∃ d, Returns f (pvOf ps vals) d ∧ d.keys.Nodup ∧
      c.col (ps.map (fun p => (dom.get? p).getD [])) vals =
        some (c.domain.map (fun x => (given d x).getD
          ((1 - givenMass d) / (unspecified c.domain d).length))) := by
  obtain ⟨ds, possible, domain, cards, cols, h1, h2, h3, h4, h5, h6, h7, h8, h9, rfl⟩ := mkCpd_ok_iff.1 h
  rw [parentDoms_ok] at h1
  have hmem := (inst_iff h1).2 hv
  have hcol : mapPy (fun vals => colFor f domain (pvOf ps vals)) (product ds) = .ok cols := by
    rw [mapPy_ok_iff] at h5 ⊢
    exact List.forall₂_map_left_iff.1 h5
  obtain ⟨y, _, hy⟩ := mapPy_mem hcol hmem
  unfold colFor at hy
  cases hs : stochasticFunction f (pvOf ps vals) with
  | error e => rw [hs] at hy; simp at hy
  | ok d =>
    have hr := stochasticFunction_ok.1 hs
    have hn := hr.nodup hf
    refine ⟨d, hr, hn, ?_⟩
    unfold Cpd.col
    rw [← forall₂_doms h1]
    simp only
    rw [mapPy_eq_map [] hcol, get?_zip_map hmem]
    simp only [colFor, hs, column_ok hn h9]

theorem mkCpd_entry {kind : CpdKind} {v : Node} {f : Func} {force : Option (List Outcome)}
    {ps : List Node} {dom : Dict Node (List Outcome)} {card : Node → Py Nat} {c : Cpd}
    (h : mkCpd kind v f force ps dom card = .ok c) (hf : DictOk f) {vals : List Outcome}
    (hv : Instantiation ps dom vals) :
    ∃ d, Returns f (pvOf ps vals) d ∧ d.keys.Nodup ∧
      ∀ x ∈ c.domain, c.prob dom vals x = some ((given d x).getD
          ((1 - givenMass d) / (unspecified c.domain d).length)) := by
  obtain ⟨d, hr, hn, hc⟩ := mkCpd_col h hf hv
  refine ⟨d, hr, hn, fun x hx => ?_⟩
  have hev : c.evidence = ps := by
    obtain ⟨_, _, _, _, _, _, _, _, _, _, _, _, _, _, rfl⟩ := mkCpd_ok_iff.1 h
    rfl
  unfold Cpd.prob Cpd.entry
  rw [hev, hc]
  simp only [Option.bind_some]
  exact get?_zip_map hx

theorem Returns.unique {f : Func} {pv : PV} {d e : Dict Outcome (Option Rat)} (h1 : Returns f pv d)
    (h2 : Returns f pv e) : d = e := by
  have := (stochasticFunction_ok.2 h1).symm.trans (stochasticFunction_ok.2 h2)
  simpa using this

theorem mkCpd_fields {kind : CpdKind} {v : Node} {f : Func} {force : Option (List Outcome)}
    {ps : List Node} {dom : Dict Node (List Outcome)} {card : Node → Py Nat} {c : Cpd}
    (h : mkCpd kind v f force ps dom card = .ok c) :
    c.var = v ∧ c.evidence = ps ∧ c.kind = kind ∧ c.func = f ∧ c.force = force ∧ c.domain.Nodup := by
  obtain ⟨_, _, _, _, _, _, _, _, _, _, _, _, _, h', rfl⟩ := mkCpd_ok_iff.1 h
  exact ⟨rfl, rfl, rfl, rfl, rfl, h'⟩

theorem column_total (domain : List Outcome) (d : Dict Outcome (Option Rat)) :
    ∃ col, column domain d = .ok col := by
  unfold column
  obtain ⟨ys, h, _⟩ := mapPy_ok (f := fun t => (completeProb domain d).get t) (xs := domain) (by
    intro t ht
    have hk : t ∈ (completeProb domain d).keys := by
      simp only [completeProb, Dict.keys, List.map_append, List.mem_append]
      by_cases hm : t ∈ (d.filterMap (fun p => p.2.map (fun v => (p.1, v)))).map (·.1)
      · exact Or.inl hm
      · right
        simp only [List.map_map, List.mem_map, List.mem_filter, List.mem_dedup]
        exact ⟨t, ⟨ht, by simpa [Dict.keys] using hm⟩, rfl⟩
    obtain ⟨v, hv⟩ := Dict.mem_keys.1 hk
    exact ⟨v, Dict.get_ok.2 hv⟩)
  exact ⟨ys, h⟩

/-! ### pure rules -/

theorem sum_indicator {l : List Outcome} (hn : l.Nodup) {o : Outcome} (ho : o ∈ l) :
    (l.map (fun x => if x = o then (1 : Rat) else 0)).sum = 1 := by
  induction l with
  | nil => simp at ho
  | cons a l ih =>
    have hn' := List.nodup_cons.1 hn
    simp only [List.map_cons, List.sum_cons]
    by_cases h : a = o
    · subst h
      have : (l.map (fun x => if x = a then (1 : Rat) else 0)) = l.map (fun _ => 0) := by
        apply List.map_congr_left
        intro x hx
        rw [if_neg]
        rintro rfl
        exact hn'.1 hx
      rw [this]
      simp
    · rw [if_neg h, ih hn'.2 (by
        rcases List.mem_cons.1 ho with h' | h'
        · exact absurd h'.symm h
        · exact h')]
      simp

theorem column_point {domain : List Outcome} (hd : domain.Nodup) (o : Outcome) :
    column domain [(o, some 1)] = .ok (domain.map (fun x => if x = o then 1 else 0)) := by
  rw [column_ok (by simp [Dict.keys]) hd]
  congr 1
  apply List.map_congr_left
  intro x _
  simp only [given, givenMass, Dict.get?]
  by_cases h : o = x
  · simp [h]
  · simp [h, Ne.symm h]

theorem mkCpd_point {kind : CpdKind} {v : Node} {f : Func} {domain : List Outcome}
    {ps : List Node} {dom : Dict Node (List Outcome)} {card : Node → Py Nat}
    {φ : List Outcome → Outcome} (hd : domain.Nodup) (hne : domain ≠ [])
    (hdom : ∀ p ∈ ps, ∃ d, dom.get? p = some d ∧ card p = .ok d.length)
    (hf : ∀ vals, Instantiation ps dom vals → f (pvOf ps vals) = .ok (.val (φ vals)) ∧ φ vals ∈ domain) :
    ∃ c, mkCpd kind v f (some domain) ps dom card = .ok c ∧ c.domain = domain ∧ c.evidence = ps ∧
      c.kind = kind ∧ c.var = v ∧ Plays c dom φ := by
  obtain ⟨ds, hds⟩ : ∃ ds, parentDoms ps dom = .ok ds := by
    obtain ⟨ds, h, _⟩ := mapPy_ok (f := domOf dom) (xs := ps) (by
      intro p hp
      obtain ⟨d, h, _⟩ := hdom p hp
      exact ⟨d, domOf_ok.2 h⟩)
    exact ⟨ds, h⟩
  have hds' := parentDoms_ok.1 hds
  have hsf : ∀ vals ∈ product ds, stochasticFunction f (pvOf ps vals) = .ok [(φ vals, some 1)] := by
    intro vals hv
    obtain ⟨h, _⟩ := hf vals ((inst_iff hds').1 hv)
    simp [stochasticFunction, h]
  have hpos : possibleValues f ((product ds).map (pvOf ps)) =
      .ok (((product ds).map φ).dedup.insertionSort (· ≤ ·)) := by
    unfold possibleValues
    have : mapPy (stochasticFunction f) ((product ds).map (pvOf ps)) =
        .ok ((product ds).map (fun vals => [(φ vals, some (1 : Rat))])) := by
      rw [mapPy_ok_iff, List.forall₂_map_left_iff, List.forall₂_map_right_iff]
      exact List.forall₂_same.2 hsf
    rw [this]
    simp [List.flatMap_map, Dict.keys, ← List.map_eq_flatMap]
  have hch : chooseDomain (some domain) (((product ds).map φ).dedup.insertionSort (· ≤ ·)) = .ok domain := by
    cases domain with
    | nil => exact absurd rfl hne
    | cons a l =>
      simp only [chooseDomain, truthy]
      rw [if_pos]
      rw [List.all_eq_true]
      intro x hx
      rw [List.mem_insertionSort, List.mem_dedup, List.mem_map] at hx
      obtain ⟨vals, hv, rfl⟩ := hx
      simpa using (hf vals ((inst_iff hds').1 hv)).2
  have hcard : mapPy card ps = .ok (ds.map List.length) := by
    rw [mapPy_ok_iff, List.forall₂_map_right_iff]
    rw [List.forall₂_iff_get] at hds' ⊢
    refine ⟨hds'.1, fun i h1 h2 => ?_⟩
    obtain ⟨d, e1, e2⟩ := hdom (ps.get ⟨i, h1⟩) (List.get_mem _ _)
    have := hds'.2 i h1 h2
    rw [e1] at this
    cases this
    exact e2
  have hcols : mapPy (colFor f domain) ((product ds).map (pvOf ps)) =
      .ok ((product ds).map (fun vals => domain.map (fun x => if x = φ vals then (1 : Rat) else 0))) := by
    rw [mapPy_ok_iff, List.forall₂_map_left_iff, List.forall₂_map_right_iff]
    apply List.forall₂_same.2
    intro vals hv
    simp only [colFor, hsf vals hv, column_point hd]
  refine ⟨_, mkCpd_ok_iff.2 ⟨ds, _, domain, _, _, hds, hpos, hch, hcard, hcols, ?_, ?_, ?_, hd, rfl⟩,
    rfl, rfl, rfl, rfl, ?_⟩
  · rw [List.all_eq_true]
    intro col hc
    obtain ⟨vals, hv, rfl⟩ := List.mem_map.1 hc
    have := sum_indicator hd (hf vals ((inst_iff hds').1 hv)).2
    simp only [colClose, this]
    norm_num
  · rw [List.all_eq_true]
    intro col hc
    obtain ⟨vals, hv, rfl⟩ := List.mem_map.1 hc
    simp only [colRange, List.all_map, List.all_eq_true]
    intro x _
    simp only [Function.comp]
    split <;> simp
  · rw [List.length_map, length_product]
  · intro vals hv x hx
    unfold Cpd.prob Cpd.entry Cpd.col
    simp only at hv hx ⊢
    rw [← forall₂_doms hds', get?_zip_map ((inst_iff hds').2 hv)]
    simp only [Option.bind_some]
    exact get?_zip_map hx

theorem Plays.unique {c : Cpd} {dom : Dict Node (List Outcome)} {φ ψ : List Outcome → Outcome}
    (h1 : Plays c dom φ) (h2 : Plays c dom ψ) {vals : List Outcome}
    (hv : Instantiation c.evidence dom vals) (hm : φ vals ∈ c.domain) : φ vals = ψ vals := by
  have a := h1 vals hv _ hm
  have b := h2 vals hv _ hm
  rw [a] at b
  by_contra hne
  simp [hne] at b

theorem mem_ruleTuples {domain : List Outcome} {ds : List (List Outcome)} {t : List Outcome} :
    t ∈ ruleTuples domain ds ↔ t.length = (ds.map List.length).prod ∧ ∀ x ∈ t, x ∈ domain := by
  unfold ruleTuples
  rw [mem_product]
  generalize (ds.map List.length).prod = n
  induction n generalizing t with
  | zero =>
    constructor
    · intro h; cases h; simp
    · rintro ⟨h, _⟩; rw [List.length_eq_zero_iff.1 h]; exact List.Forall₂.nil
  | succ n ih =>
    rw [List.replicate_succ]
    constructor
    · intro h
      cases h with
      | cons a b =>
        obtain ⟨e1, e2⟩ := ih.1 b
        refine ⟨by simp [e1], ?_⟩
        intro x hx
        rcases List.mem_cons.1 hx with rfl | hx
        · exact a
        · exact e2 x hx
    · rintro ⟨h, h2⟩
      cases t with
      | nil => simp at h
      | cons a t =>
        exact List.Forall₂.cons (h2 a (by simp)) (ih.2 ⟨by simpa using h, fun x hx => h2 x (by simp [hx])⟩)

theorem Instantiation.length {ps : List Node} {dom : Dict Node (List Outcome)} {vals : List Outcome}
    (h : Instantiation ps dom vals) : ps.length = vals.length := List.Forall₂.length_eq h

theorem pureDecisionRules_spec {v : Node} {ps : List Node} {dom : Dict Node (List Outcome)}
    {card : Node → Py Nat} {domain : List Outcome} (hn : ps.Nodup) (hv : dom.get? v = some domain)
    (hd : domain.Nodup) (hne : domain ≠ [])
    (hdom : ∀ p ∈ ps, ∃ d, dom.get? p = some d ∧ d.Nodup ∧ card p = .ok d.length) :
    ∃ rules, pureDecisionRules v ps dom card = .ok rules ∧
      rules.length = domain.length ^ ((ps.map (fun p => ((dom.get? p).getD []).length)).prod) ∧
      (∀ c ∈ rules, c.var = v ∧ c.domain = domain ∧ c.evidence = ps ∧
        ∃ φ : List Outcome → Outcome, (∀ vals, Instantiation ps dom vals → φ vals ∈ domain) ∧
          Plays c dom φ) ∧
      ∀ φ : List Outcome → Outcome, (∀ vals, Instantiation ps dom vals → φ vals ∈ domain) →
        ∃ (i : Nat) (c : Cpd), rules[i]? = some c ∧ Plays c dom φ ∧
          ∀ (j : Nat) (c' : Cpd), rules[j]? = some c' → Plays c' dom φ → j = i := by
  obtain ⟨ds, hds⟩ : ∃ ds, parentDoms ps dom = .ok ds := by
    obtain ⟨ds, h, _⟩ := mapPy_ok (f := domOf dom) (xs := ps) (by
      intro p hp
      obtain ⟨d, h, _⟩ := hdom p hp
      exact ⟨d, domOf_ok.2 h⟩)
    exact ⟨ds, h⟩
  have hds' := parentDoms_ok.1 hds
  have hnod : ∀ d ∈ ds, d.Nodup := by
    intro d hm
    obtain ⟨i, hi, rfl⟩ := List.getElem_of_mem hm
    have hl := hds'.length_eq
    have h1 := (List.forall₂_iff_get.1 hds').2 i (by omega) hi
    obtain ⟨d', e, hn', _⟩ := hdom _ (List.get_mem ps ⟨i, by omega⟩)
    rw [e] at h1
    cases h1
    exact hn'
  obtain ⟨cards, hcards, _⟩ := mapPy_ok (f := card) (xs := ps) (by
      intro p hp
      obtain ⟨d, _, _, h⟩ := hdom p hp
      exact ⟨_, h⟩)
  -- every tuple gives a rule
  have hrule : ∀ t ∈ ruleTuples domain ds, ∃ c,
      mkCpd .stochastic v (ruleFunc ps ds t) (some domain) ps dom card = .ok c ∧
      c.domain = domain ∧ c.evidence = ps ∧ c.kind = .stochastic ∧ c.var = v ∧
      Plays c dom (fun vals => t.getD (enc ds vals) 0) := by
    intro t ht
    obtain ⟨hl, hm⟩ := mem_ruleTuples.1 ht
    apply mkCpd_point hd hne (fun p hp => by
      obtain ⟨d, a, _, b⟩ := hdom p hp
      exact ⟨d, a, b⟩)
    intro vals hi
    have hF := mem_product.1 ((inst_iff hds').2 hi)
    have hlt : enc ds vals < t.length := by rw [hl]; exact enc_lt hF
    have hget : t[enc ds vals]? = some t[enc ds vals] := List.getElem?_eq_getElem hlt
    constructor
    · simp only [ruleFunc, arg2idx_enc hn hds'.length_eq hF, hget]
      simp [List.getD, hget]
    · simp only [List.getD, hget, Option.getD_some]
      exact hm _ (List.getElem_mem _)
  obtain ⟨rules, hr1, hr2⟩ := mapPy_ok
    (f := fun t => mkCpd .stochastic v (ruleFunc ps ds t) (some domain) ps dom card)
    (xs := ruleTuples domain ds) (fun t ht => by obtain ⟨c, h, _⟩ := hrule t ht; exact ⟨c, h⟩)
  have hlen := hr2.length_eq
  have hφt : ∀ t ∈ ruleTuples domain ds, ∀ vals, Instantiation ps dom vals →
      t.getD (enc ds vals) 0 ∈ domain := by
    intro t ht vals hi
    obtain ⟨hl, hm⟩ := mem_ruleTuples.1 ht
    have hF := mem_product.1 ((inst_iff hds').2 hi)
    have hlt : enc ds vals < t.length := by rw [hl]; exact enc_lt hF
    simp only [List.getD, List.getElem?_eq_getElem hlt, Option.getD_some]
    exact hm _ (List.getElem_mem _)
  refine ⟨rules, ?_, ?_, ?_, ?_⟩
  · simp only [pureDecisionRules, hv, hcards, hds, hr1]
  · rw [← hlen, ruleTuples, length_product, forall₂_doms hds']
    simp [Function.comp_def]
  · intro c hc
    obtain ⟨t, ht, e⟩ := mapPy_mem' hr1 hc
    obtain ⟨c', e', h1, h2, _, h3, h4⟩ := hrule t ht
    rw [e'] at e
    cases e
    exact ⟨h3, h1, h2, _, hφt t ht, h4⟩
  · intro φ hφ
    classical
    let n := (ds.map List.length).prod
    let dec : Nat → List Outcome := fun i => if h : i < n then (enc_surj hnod h).choose else []
    have hdec : ∀ i, i < n → Instantiation ps dom (dec i) ∧ enc ds (dec i) = i := by
      intro i hi
      have := (enc_surj hnod hi).choose_spec
      simp only [dec, hi, dif_pos]
      exact ⟨(inst_iff hds').1 (mem_product.2 this.1), this.2⟩
    let t := (List.range n).map (fun i => φ (dec i))
    have ht : t ∈ ruleTuples domain ds := by
      rw [mem_ruleTuples]
      refine ⟨by simp [t, n], ?_⟩
      intro x hx
      obtain ⟨i, hi, rfl⟩ := List.mem_map.1 hx
      exact hφ _ (hdec i (List.mem_range.1 hi)).1
    obtain ⟨i, hi, hit⟩ := List.getElem_of_mem ht
    have hi' : i < rules.length := by omega
    have hri := (List.forall₂_iff_get.1 hr2).2 i hi hi'
    have hti : (ruleTuples domain ds).get ⟨i, hi⟩ = t := hit
    rw [hti] at hri
    obtain ⟨c, e, h1, h2, _, h3, h4⟩ := hrule t ht
    rw [e] at hri
    have hc : rules[i] = c := by simpa using hri.symm
    have hsame : ∀ vals, Instantiation ps dom vals → t.getD (enc ds vals) 0 = φ vals := by
      intro vals hvl
      have hF := mem_product.1 ((inst_iff hds').2 hvl)
      have hlt := enc_lt hF
      have hd' := hdec _ hlt
      have : dec (enc ds vals) = vals :=
        enc_inj (mem_product.1 ((inst_iff hds').2 hd'.1)) hF hd'.2
      simp [t, List.getD, n, hlt, this]
    refine ⟨i, c, by rw [List.getElem?_eq_getElem hi', hc], ?_, ?_⟩
    · intro vals hvl x hx
      rw [h2] at hvl
      rw [h4 vals (by rw [h2]; exact hvl) x hx]
      simp only [hsame vals hvl]
    · intro j c' hj hp
      have hj' : j < rules.length := (List.getElem?_eq_some_iff.1 hj).1
      have hcj : rules[j] = c' := (List.getElem?_eq_some_iff.1 hj).2
      have hj2 : j < (ruleTuples domain ds).length := by omega
      have hrj := (List.forall₂_iff_get.1 hr2).2 j hj2 hj'
      have htj : (ruleTuples domain ds)[j] ∈ ruleTuples domain ds := List.getElem_mem _
      obtain ⟨c2, e2, g1, g2, _, g3, g4⟩ := hrule _ htj
      have hc2 : c2 = c' := by
        have h5 : mkCpd .stochastic v (ruleFunc ps ds (ruleTuples domain ds)[j]) (some domain) ps dom card
          = .ok rules[j] := hrj
        rw [e2] at h5
        rw [← hcj]
        simpa using h5
      subst hc2
      obtain ⟨hl1, _⟩ := mem_ruleTuples.1 htj
      obtain ⟨hl2, _⟩ := mem_ruleTuples.1 ht
      have heq : (ruleTuples domain ds)[j] = t := by
        apply List.ext_getElem (by omega)
        intro k hk1 hk2
        have hkn : k < n := by simp only [n]; omega
        obtain ⟨hin, hek⟩ := hdec k hkn
        have h6 := Plays.unique g4 hp (by rw [g2]; exact hin) (by rw [g1]; exact hφt _ htj _ hin)
        simp only [hek, List.getD, List.getElem?_eq_getElem hk1, Option.getD_some] at h6
        rw [h6]
        simp [t]
      have hnd : (ruleTuples domain ds).Nodup := nodup_product (by
        intro l hl
        rw [(List.mem_replicate.1 hl).2]
        exact hd)
      exact (hnd.getElem_inj_iff).1 (by rw [heq, hit])

end Verif
