import Verif.Model.Label
import Verif.Spec.Label

/-!
# The label of a relationship is the text of its lambda expression (C102)
-/

namespace Verif

open Label

namespace Label

theorem find_some {sub s : List Char} {start p : Nat} (hs : p ≤ s.length) (h : FirstAt sub s start p) : find sub s start = some p := by
  unfold find
  rw [List.find?_range_eq_some]
  refine ⟨by simpa using ⟨h.1, h.2.1⟩, by simp; omega, fun j hj => ?_⟩
  simp only [Bool.not_eq_true', Bool.and_eq_false_iff, decide_eq_false_iff_not, Bool.not_eq_true]
  by_cases hsj : start ≤ j
  · right
    have := h.2.2 j hsj hj
    rw [← Bool.not_eq_true, List.isPrefixOf_iff_prefix]
    exact this
  · exact Or.inl hsj

theorem find_none {sub s : List Char} {start : Nat} (h : ∀ i, start ≤ i → ¬ sub <+: s.drop i) : find sub s start = none := by
  unfold find
  rw [List.find?_eq_none]
  intro i _
  simp only [Bool.and_eq_true, decide_eq_true_eq, List.isPrefixOf_iff_prefix, not_and]
  exact h i

theorem depth_cons (c : Char) (s : List Char) : depth (c :: s) = deeper 0 c + depth s := by
  unfold depth deeper opens closes
  simp only [List.countP_cons, List.mem_cons, List.not_mem_nil, or_false, decide_eq_true_eq, Bool.or_eq_true, beq_iff_eq]
  by_cases h1 : c = '(' ∨ c = '[' ∨ c = '{'
  · have h2 : ¬ (c = ')' ∨ c = ']' ∨ c = '}') := by
      rcases h1 with rfl | rfl | rfl <;> decide
    have h3 : (c = '(' ∨ c = '[') ∨ c = '{' := by tauto
    rw [if_pos h1, if_neg h2, if_pos h3]
    push_cast
    omega
  · have h3 : ¬ ((c = '(' ∨ c = '[') ∨ c = '{') := by tauto
    rw [if_neg h1, if_neg h3]
    by_cases h2 : c = ')' ∨ c = ']' ∨ c = '}'
    · have h4 : (c = ')' ∨ c = ']') ∨ c = '}' := by tauto
      rw [if_pos h2, if_pos h4]
      push_cast
      omega
    · have h4 : ¬ ((c = ')' ∨ c = ']') ∨ c = '}') := by tauto
      rw [if_neg h2, if_neg h4]
      push_cast
      omega

theorem deeper_add (k : Int) (c : Char) : deeper k c = k + deeper 0 c := by
  unfold deeper
  split_ifs <;> omega

/-- characters with their positions -/
def enum (j : Nat) (s : List Char) : List (Nat × Char) := (s.zipIdx j).map (fun p => (p.2, p.1))

theorem enum_cons (j : Nat) (c : Char) (s : List Char) : enum j (c :: s) = (j, c) :: enum (j + 1) s := by
  simp [enum, List.zipIdx_cons]

theorem scan_body : ∀ (s : List Char) (j : Nat) (k : Int) (t : List Char), (∀ p r, s = p ++ r → 0 ≤ k + depth p) →
    (∀ p r, s = p ++ ',' :: r → k + depth p ≠ 0) → scan k (enum j (s ++ t)) = scan (k + depth s) (enum (j + s.length) t)
  | [], j, k, t, _, _ => by simp [depth]
  | c :: s, j, k, t, h1, h2 => by
    have e : deeper k c = k + deeper 0 c := deeper_add k c
    have hd0 : depth [] = 0 := by simp [depth]
    have hc : 0 ≤ k + deeper 0 c := by
      have := h1 [c] s rfl
      rw [depth_cons, hd0] at this
      omega
    rw [List.cons_append, enum_cons, scan]
    rw [if_neg]
    · rw [scan_body s (j + 1) (deeper k c) t ?_ ?_]
      · rw [e, depth_cons, List.length_cons]
        congr 1
        · omega
        · congr 1
          omega
      · rintro p r rfl
        have := h1 (c :: p) r rfl
        rw [depth_cons] at this
        omega
      · rintro p r rfl
        have := h2 (c :: p) r rfl
        rw [depth_cons] at this
        omega
    · rintro (⟨q1, rfl⟩ | q)
      · have := h2 [] s rfl
        rw [hd0] at this
        have : deeper 0 ',' = 0 := by decide
        omega
      · omega

theorem positions_some (sl : List Char) (r : Nat) : positions sl (some r) = enum r (sl.drop r) := by
  show (sl.zipIdx.drop r).map _ = ((sl.drop r).zipIdx r).map _
  congr 1
  apply List.ext_getElem?
  intro i
  simp [List.getElem?_drop, List.getElem?_zipIdx, Nat.add_comm]

theorem scan_end {t : List Char} (h : Ends t) (j : Nat) (n : Nat) (hn : n = j + t.length) (ht : t = [] → j = n) :
    (scan 0 (enum j t)).getD n = j := by
  rcases h with rfl | ⟨c, r, rfl, hc⟩
  · simp [enum, scan, ht rfl]
  · rw [enum_cons, scan]
    rw [if_pos]
    · rfl
    · simp only [List.mem_cons, List.not_mem_nil, or_false] at hc
      rcases hc with rfl | rfl | rfl | rfl <;> decide

end Label

/-- **C102** A relationship given by a lambda expression on one line gets the text of its body as label: if the first `lambda` after
the first occurrence of the variable's name is that expression, there is one space after the colon, brackets in the body are balanced and
commas are within brackets. -/
theorem C102_lambda {var line body tail : List Char} {p q r : Nat} (hv : FirstAt var line 0 p)
    (hl : FirstAt "lambda".toList line p q) (hc : FirstAt ":".toList line q r) (hline : line.drop (r + 1) = ' ' :: body ++ tail)
    (hb : Expression body) (ht : Ends tail) (name : Option (List Char)) (hn : name = none ∨ name = some "<lambda>".toList) :
    label none var name (.line line) = .ok body := by
  have hlen : r + 1 < line.length := by
    by_contra hcon
    rw [List.drop_eq_nil_of_le (by omega)] at hline
    simp at hline
  have hqr := hc.1
  have hpq := hl.1
  have e1 := find_some (by omega) hv
  have e2 := find_some (by omega) hl
  have e3 := find_some (by omega) hc
  have hnn : ¬ (name.isSome ∧ name ≠ some "<lambda>".toList) := by
    rcases hn with rfl | rfl <;> simp
  unfold label computeLabel
  simp only
  rw [if_neg hnn, e1]
  simp only [Option.getD_some]
  rw [e2]
  simp only
  rw [e3]
  simp only
  have hdrop : line.drop r = ':' :: ' ' :: (body ++ tail) := by
    rw [List.drop_eq_getElem_cons (by omega), hline]
    have := hc.2.1
    rw [List.drop_eq_getElem_cons (by omega)] at this
    obtain ⟨t, ht'⟩ := this
    simp only [List.cons_append, List.cons.injEq] at ht' ⊢
    refine ⟨?_, trivial⟩
    have h4 : (":".toList ++ t) = ':' :: t := rfl
    rw [h4] at ht'
    exact (List.cons.inj ht').1.symm
  have hL : line.length = r + 2 + body.length + tail.length := by
    have := congrArg List.length hdrop
    simp only [List.length_drop, List.length_cons, List.length_append] at this
    omega
  have hscan : scan 0 (positions line (some r)) = scan 0 (enum (r + 2 + body.length) tail) := by
    rw [positions_some, hdrop, enum_cons, enum_cons, scan]
    rw [if_neg (by decide), scan]
    rw [if_neg (by decide)]
    have e4 : deeper (deeper 0 ':') ' ' = 0 := by decide
    rw [e4, scan_body body (r + 1 + 1) 0 tail (fun p r h => by have := hb.nonneg p r h; omega) (fun p r h => by have := hb.commas p r h; omega)]
    rw [hb.balanced]
    rfl
  rw [hscan, scan_end ht _ _ hL (fun h => by rw [hL, h]; rfl)]
  have : slice line (r + 2) (r + 2 + body.length) = body := by
    unfold slice
    rw [List.drop_take]
    have : line.drop (r + 2) = body ++ tail := by
      have := congrArg (List.drop 2) hdrop
      rw [List.drop_drop] at this
      simpa [Nat.add_comm] using this
    rw [this]
    simp
  rw [this]

/-- **C102** A label that is given is used; a named function is labelled with its name; without source the label is empty. -/
theorem C102_others (var : List Char) (src : Source) :
    (∀ l name, label (some l) var name src = .ok l) ∧
    (∀ name, name ≠ "<lambda>".toList → label none var (some name) src = .ok name) ∧
    (∀ name, name = none ∨ name = some "<lambda>".toList → label none var name .missing = .ok []) := by
  refine ⟨fun _ _ => rfl, fun name h => ?_, fun name h => ?_⟩
  · unfold label computeLabel
    simp only
    rw [if_pos ⟨rfl, by simpa using h⟩]
    rfl
  · unfold label computeLabel
    simp only
    rw [if_neg (by rcases h with rfl | rfl <;> simp)]

/-- **C102** A callable without name that is not a function, such as a `functools.partial`, is rejected with TypeError unless a label is given. -/
theorem C102_not_function (var : List Char) : label none var none .notFunction = .error .type := rfl

/-- **C102** The label is empty if the line does not contain the variable's name: it stands on an earlier line than the lambda expression. -/
theorem C102_other_line {var line : List Char} (hv : ∀ i, ¬ var <+: line.drop i) (name : Option (List Char))
    (hn : name = none ∨ name = some "<lambda>".toList) : label none var name (.line line) = .ok [] := by
  unfold label computeLabel
  simp only
  rw [if_neg (by rcases hn with rfl | rfl <;> simp), find_none (fun i _ => hv i)]
  simp only [Option.getD_none]
  rw [find_none]
  intro i hi h
  have := h.length_le
  simp only [List.length_drop] at this
  have h6 : "lambda".toList.length = 6 := by decide
  omega

/-- The hypotheses are met by lines as users write them. -/
theorem C102_example :
    label none "U".toList (some "<lambda>".toList) (.line "    S=lambda: 1, U=lambda S, D: max(S, D) + f([1, 2]),\n".toList) = .ok "max(S, D) + f([1, 2])".toList ∧
    label none "D".toList none (.line "cid.add_cpds(D=lambda: {0: 0.5, 1: 0.5})".toList) = .ok "{0: 0.5, 1: 0.5}".toList := by
  constructor <;> decide +kernel

/-- **C102** The label is wrong if the variable's name occurs earlier in the line, if there is no space after the colon, or if a default
value contains a colon. -/
theorem C102_wrong_labels :
    label none "d".toList none (.line "cid.add_cpds(A=lambda: 0, d=lambda: 1)".toList) = .ok "0".toList ∧
    label none "U".toList none (.line "U=lambda D:10*D)".toList) = .ok "0*D".toList ∧
    label none "U".toList none (.line "U=lambda D, k={1: 2}: k[D])".toList) = .ok "2".toList := by
  refine ⟨?_, ?_, ?_⟩ <;> decide +kernel

end Verif
