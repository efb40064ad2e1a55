import Verif.MathInt.NamedModel
/-
C83: Abs and Div for user defined types.
-/
namespace Micro.MathInt

/-- A Go package name: letters, digits and underscores. -/
def GoIdent (s : String) : Prop := ∀ c ∈ s.toList, c.isAlphanum = true ∨ c = '_'

/-- C83 fails: with `type Delta int` in package main, Abs and Div panic; with the same type in a package whose name starts with "uint"
Abs(-5) succeeds and leaves -5. -/
theorem c83_named_refuted : absOf ⟨.int, some ("main", "Delta")⟩ (-5) = none ∧ divOf ⟨.int, some ("main", "Delta")⟩ 6 3 0 = none ∧
    absOf ⟨.int, some ("uints", "Delta")⟩ (-5) = some (-5, none) := by
  refine ⟨by decide, by decide, by decide⟩

/-- C83, partial: for the predeclared types Abs and Div are the operations of C19 and C18 and never panic. -/
theorem c83_predeclared_partial (k : Kind) (v de dv cur : Int) :
    absOf ⟨k, none⟩ v = some (abs k v) ∧ divOf ⟨k, none⟩ de dv cur = some (div k de dv cur) := by
  cases k <;> simp [absOf, divOf, IntType.str, Kind.name, toAbsKeys, toDivKeys, abs, Kind.signed, List.isPrefixOf]

/-- What happens instead: Div panics for every user defined integer type, Abs for every one whose package does not start with
"uint". -/
theorem c83_named_panics (k : Kind) (pkg n : String) (hp : GoIdent pkg) (v de dv cur : Int) :
    divOf ⟨k, some (pkg, n)⟩ de dv cur = none ∧
    (¬ "uint".toList <+: pkg.toList → absOf ⟨k, some (pkg, n)⟩ v = none) := by
  have hl : (IntType.str ⟨k, some (pkg, n)⟩).toList = pkg.toList ++ '.' :: n.toList := by
    simp [IntType.str]
  have hdot : '.' ∈ (IntType.str ⟨k, some (pkg, n)⟩).toList := by rw [hl]; simp
  have hstar : (IntType.str ⟨k, some (pkg, n)⟩).toList.head? ≠ some '*' := by
    rw [hl]
    cases hpk : pkg.toList with
    | nil => simp
    | cons c cs =>
      intro h
      simp at h
      subst h
      have := hp '*' (by rw [hpk]; simp)
      revert this; decide
  have key : ∀ s : String, s ∈ toDivKeys → ('.' ∈ s.toList → s.toList.head? = some '*') := by
    intro s hs
    simp only [toDivKeys, List.mem_cons, List.not_mem_nil, or_false] at hs
    rcases hs with rfl | rfl | rfl | rfl | rfl | rfl | rfl | rfl | rfl | rfl | rfl | rfl | rfl | rfl | rfl <;> decide
  have hn : IntType.str ⟨k, some (pkg, n)⟩ ∉ toDivKeys := fun h => hstar (key _ h hdot)
  have hsub : ∀ s ∈ toAbsKeys, s ∈ toDivKeys := by decide
  refine ⟨by simp [divOf, hn], ?_⟩
  intro hu
  unfold absOf
  rw [if_neg, if_neg (fun h => hn (hsub _ h))]
  intro h
  rw [List.isPrefixOf_iff_prefix, hl] at h
  by_cases hlen : "uint".toList.length ≤ pkg.toList.length
  · exact hu (List.prefix_of_prefix_length_le h (List.prefix_append _ _) hlen)
  · have h2 : pkg.toList ++ ['.'] <+: pkg.toList ++ '.' :: n.toList := ⟨n.toList, by simp⟩
    have h3 := List.prefix_of_prefix_length_le h2 h (by simp at hlen ⊢; omega)
    have : '.' ∈ "uint".toList := h3.subset (by simp)
    revert this; decide

example : GoIdent "main" ∧ ¬ "uint".toList <+: "main".toList := by
  refine ⟨?_, by decide⟩
  intro c hc
  have : c ∈ ['m', 'a', 'i', 'n'] := hc
  simp at this
  rcases this with rfl | rfl | rfl | rfl <;> decide

end Micro.MathInt
