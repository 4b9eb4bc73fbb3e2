import Verif.Spec.Derive

/-!
# C75: `derive(ParserUserError)` makes a type an error type
-/

set_option autoImplicit false

namespace Verif.C75
open Rust RustSyntax Derive

/-- The type that a derive is for. -/
def self (d : DeriveInput) : ETy := ⟨[d.ident], []⟩

/-- The two impls. -/
def both (d : DeriveInput) : List EImpl := [⟨.from infallible, self d⟩, ⟨.parserUserError, self d⟩]

/-- **C75 (what is derived).** The derived tokens are impls of `From<Infallible>` and of `ParserUserError` for the type. -/
theorem derived (d : DeriveInput) (hd : d.ident ∉ reserved) : impls 2 (buildUserErrorImpl d) = some (both d) := by
  have h1 : ∀ t, ident (.word d.ident :: t) = some (d.ident, t) := by simp [ident, hd]
  have h2 : ∀ t, Derive.path (.word d.ident :: .op "{" :: t) = some ([d.ident], .op "{" :: t) := by
    intro t
    simp only [Derive.path, h1]
    cases t with
    | nil => rfl
    | cons a t => cases a <;> rfl
  have h3 : ∀ t, Derive.path (.op "::" :: .word "std" :: .op "::" :: .word "convert" :: .op "::" :: .word "Infallible" ::
      .op ">" :: .word "for" :: t) = some (["std", "convert", "Infallible"], .op ">" :: .word "for" :: t) := fun _ => rfl
  have h4 : ∀ t, Derive.path (.op "::" :: .word "std" :: .op "::" :: .word "convert" :: .op "::" :: .word "Infallible" ::
      .op ")" :: .op "->" :: t) = some (["std", "convert", "Infallible"], .op ")" :: .op "->" :: t) := fun _ => rfl
  have h5 : ∀ t, Derive.path (.word "From" :: .op "<" :: .op "::" :: t) = some (["From"], .op "<" :: .op "::" :: t) :=
    fun _ => rfl
  have h6 : ∀ t, Derive.path (.op "::" :: .word "parser_generator" :: .op "::" :: .word "error" :: .op "::" ::
      .word "ParserUserError" :: .word "for" :: t) =
      some (["parser_generator", "error", "ParserUserError"], .word "for" :: t) := fun _ => rfl
  simp [buildUserErrorImpl, impls, Derive.impl, skip, h2, h3, h4, h5, h6, both, self, infallible]

section
variable {C : Crate} {d : DeriveInput}

theorem implements_add {l : List EImpl} {t : ETrait} {ty : ETy} :
    (C.add l).Implements t ty ↔ C.Implements t ty ∨ ⟨t, ty⟩ ∈ l := by
  constructor
  · intro h
    cases h with
    | impl h =>
      rcases List.mem_append.mp h with h | h
      · exact .inl (.impl h)
      · exact .inr h
    | same => exact .inl .same
    | infallible h => exact .inl (.infallible h)
    | noUserError h => exact .inl (.noUserError h)
  · rintro (h | h)
    · cases h with
      | impl h => exact .impl (List.mem_append.mpr (.inl h))
      | same => exact .same
      | infallible h => exact .infallible h
      | noUserError h => exact .noUserError h
    · exact .impl (List.mem_append.mpr (.inr h))

theorem self_ne_infallible : self d ≠ infallible := by simp [self, infallible]

theorem self_ne_noUserError : self d ≠ noUserError := by simp [self, noUserError]

/-- **C75 (when it compiles).** In a crate that compiles and declares the type, the derive compiles exactly if the type
can be written without arguments, it implements `Error` and `Clone`, and none of the two impls is there already. -/
theorem derive_compiles_iff (hC : C.Compiles) (hd : (d.ident, d.generics) ∈ C.types)
    (hu : ∀ gs, (d.ident, gs) ∈ C.types → gs = d.generics) :
    (C.add (both d)).Compiles ↔ (∀ p ∈ d.generics, p.required = false) ∧ C.Implements .error (self d) ∧
      C.Implements .clone (self d) ∧ ⟨.from infallible, self d⟩ ∉ C.impls ∧ ⟨.parserUserError, self d⟩ ∉ C.impls := by
  have happ : C.Applied (self d) ↔ ∀ p ∈ d.generics, p.required = false := by
    constructor
    · intro h p hp
      have h1 := (h d.ident d.generics rfl hd).1
      simp only [self, List.length_nil, Nat.le_zero, List.length_eq_zero_iff, List.filter_eq_nil_iff] at h1
      simpa using h1 p hp
    · intro h x gs hx hgs
      cases hx
      cases hu gs hgs
      simp only [self, List.length_nil, Nat.zero_le, and_true, Nat.le_zero, List.length_eq_zero_iff,
        List.filter_eq_nil_iff]
      intro p hp
      simp [h p hp]
  constructor
  · intro h
    refine ⟨happ.mp ?_, ?_, ?_, ?_, ?_⟩
    · exact (h.applied ⟨.parserUserError, self d⟩ (by simp [Crate.add, both])).1
    · have := (h.super (self d) (by simp [Crate.add, both])).1
      rcases implements_add.mp this with h1 | h1
      · exact h1
      · simp [both] at h1
    · have := (h.super (self d) (by simp [Crate.add, both])).2.1
      rcases implements_add.mp this with h1 | h1
      · exact h1
      · simp [both] at h1
    · intro hm
      exact (List.nodup_append.mp h.coherent.1).2.2 _ hm ⟨.from infallible, self d⟩ (by simp [both]) rfl
    · intro hm
      exact (List.nodup_append.mp h.coherent.1).2.2 _ hm ⟨.parserUserError, self d⟩ (by simp [both]) rfl
  · rintro ⟨h1, h2, h3, h4, h5⟩
    refine ⟨?_, ⟨?_, ?_⟩, ?_, ?_⟩
    · intro i hi
      rcases List.mem_append.mp hi with hi | hi
      · exact hC.applied i hi
      · simp only [both, List.mem_cons, List.not_mem_nil, or_false] at hi
        have hinf : C.Applied infallible := by
          intro x gs hx
          simp [infallible] at hx
        rcases hi with rfl | rfl
        · refine ⟨happ.mpr h1, fun src e => ?_⟩
          cases e
          exact hinf
        · exact ⟨happ.mpr h1, fun src e => by cases e⟩
    · refine List.nodup_append.mpr ⟨hC.coherent.1, by simp [both], ?_⟩
      intro i hi j hj e
      subst e
      simp only [both, List.mem_cons, List.not_mem_nil, or_false] at hj
      rcases hj with rfl | rfl
      · exact h4 hi
      · exact h5 hi
    · intro ty hm
      rcases List.mem_append.mp hm with hm | hm
      · exact hC.coherent.2 ty hm
      · simp only [both, List.mem_cons, List.not_mem_nil, or_false, EImpl.mk.injEq, ETrait.from.injEq] at hm
        rcases hm with ⟨rfl, e⟩ | ⟨e, -⟩
        · exact self_ne_infallible e.symm
        · cases e
    · intro i hi
      rcases List.mem_append.mp hi with hi | hi
      · exact hC.orphan i hi
      · refine .inl ⟨d.ident, d.generics, ?_, hd⟩
        simp only [both, List.mem_cons, List.not_mem_nil, or_false] at hi
        rcases hi with rfl | rfl <;> rfl
    · intro ty hm
      rcases List.mem_append.mp hm with hm | hm
      · obtain ⟨k1, k2, k3⟩ := hC.super ty hm
        exact ⟨implements_add.mpr (.inl k1), implements_add.mpr (.inl k2), implements_add.mpr (.inl k3)⟩
      · simp only [both, List.mem_cons, List.not_mem_nil, or_false, EImpl.mk.injEq] at hm
        rcases hm with ⟨e, -⟩ | ⟨-, rfl⟩
        · cases e
        · exact ⟨implements_add.mpr (.inl h2), implements_add.mpr (.inl h3), implements_add.mpr (.inr (by simp [both]))⟩

/-- **C75 (what it is good for).** Where the derive compiles, the type can be the error type of a grammar, `parse`
compiles, and a stream can be parsed exactly if its errors are `Error` and `Clone` and are this type, cannot happen, or
have an impl that converts them. -/
theorem derive_usable (h : (C.add (both d)).Compiles) : (C.add (both d)).Usable (self d) ∧
    ∀ F, (C.add (both d)).Streams F (self d) ↔
      (F = self d ∨ F = infallible ∨ ⟨.from F, self d⟩ ∈ C.impls) ∧
        (C.add (both d)).Implements .error F ∧ (C.add (both d)).Implements .clone F := by
  have hp : (C.add (both d)).Implements .parserUserError (self d) := .impl (by simp [Crate.add, both])
  obtain ⟨h1, h2, h3⟩ := h.super (self d) (by simp [Crate.add, both])
  refine ⟨⟨hp, h2, ⟨hp, h3, .infallible (.inl rfl)⟩, .infallible (.inr rfl)⟩, fun F => ⟨?_, ?_⟩⟩
  · rintro ⟨⟨-, k2, k3⟩, k4⟩
    refine ⟨?_, k3, k4⟩
    generalize hE : self d = E at k2
    cases k2 with
    | impl k =>
      rw [← hE] at k
      rcases List.mem_append.mp k with k | k
      · exact .inr (.inr (hE ▸ k))
      · simp only [both, List.mem_cons, List.not_mem_nil, or_false, EImpl.mk.injEq, ETrait.from.injEq] at k
        rcases k with ⟨rfl, -⟩ | ⟨e, -⟩
        · exact .inr (.inl rfl)
        · cases e
    | same => exact .inl rfl
    | infallible k => rcases k with k | k <;> cases k
    | noUserError k => exact absurd hE self_ne_noUserError
  · rintro ⟨k1, k2, k3⟩
    refine ⟨⟨hp, ?_, k2⟩, k3⟩
    rcases k1 with rfl | rfl | k1
    · exact .same
    · exact h3
    · exact .impl (List.mem_append.mpr (.inl k1))

/-- **C75 (one conversion).** In a crate that compiles, errors `F` are converted to `E` in at most one way, and in one way
if the bound `E: From<F>` holds; errors of the type itself stay what they are. -/
theorem conversion_unique (hC : C.Compiles) (F E : ETy) : (∀ a b, C.Conv F E a → C.Conv F E b → a = b) ∧ (C.Implements (.from F) E ↔ ∃ a, C.Conv F E a) ∧
      (F = E → ∀ a, C.Conv F E a → a = .same) := by
  have hlib : ⟨.from infallible, noUserError⟩ ∉ C.impls := by
    intro h
    rcases hC.orphan _ h with ⟨x, gs, h1, -⟩ | ⟨src, x, gs, h1, h2, -⟩
    · simp [noUserError] at h1
    · cases h1; simp [infallible] at h2
  have hs : F = E → ∀ a, C.Conv F E a → a = .same := by
    rintro rfl a h
    cases h with
    | same => rfl
    | crate h => exact absurd h (hC.coherent.2 _)
    | library h1 h2 => rw [h1] at h2; simp [infallible, noUserError] at h2
  refine ⟨?_, ⟨?_, ?_⟩, hs⟩
  · intro a b ha hb
    cases ha with
    | same h => exact (hs h _ hb).symm
    | crate h =>
      cases hb with
      | same h' => exact hs h' _ (.crate h)
      | crate => rfl
      | library e e' => subst e e'; exact absurd h hlib
    | library h h' =>
      cases hb with
      | same e => exact hs e _ (.library h h')
      | crate k => subst h h'; exact absurd k hlib
      | library => rfl
  · intro h
    cases h with
    | impl h => exact ⟨_, .crate h⟩
    | same => exact ⟨_, .same rfl⟩
    | infallible h => rcases h with h | h <;> cases h
    | noUserError h =>
      rcases h with h | h | h | h
      · cases h
      · cases h
      · cases h; exact ⟨_, .library rfl rfl⟩
      · cases h
  · rintro ⟨a, h⟩
    cases h with
    | same h => subst h; exact .same
    | crate h => exact .impl h
    | library h h' => subst h h'; exact .noUserError (.inr (.inr (.inl rfl)))

end

/-! ### Samples: the errors of tests/into_error_type.rs -/

namespace Sample

def myError : ETy := ⟨["MyError"], []⟩
def myOtherError : ETy := ⟨["MyOtherError"], []⟩
def input : DeriveInput := ⟨"MyError", []⟩

/-- The crate without what is derived for `MyError`. -/
def crate : Crate where
  types := [("MyError", []), ("MyOtherError", [])]
  impls := [⟨.clone, myError⟩, ⟨.error, myError⟩, ⟨.from myOtherError, myError⟩, ⟨.error, myOtherError⟩]

theorem crate_compiles : crate.Compiles where
  applied := by
    intro i hi
    have : ∀ ty : ETy, ty = myError ∨ ty = myOtherError → crate.Applied ty := by
      rintro ty (rfl | rfl) x gs hx hgs <;> cases hx <;> simp [crate] at hgs <;> subst hgs <;>
        simp [myError, myOtherError]
    simp only [crate, List.mem_cons, List.not_mem_nil, or_false] at hi
    rcases hi with rfl | rfl | rfl | rfl <;> refine ⟨this _ (by simp), fun src e => ?_⟩ <;> cases e
    exact this _ (.inr rfl)
  coherent := by
    refine ⟨by decide, fun ty h => ?_⟩
    simp only [crate, List.mem_cons, List.not_mem_nil, or_false, EImpl.mk.injEq] at h
    rcases h with ⟨e, -⟩ | ⟨e, -⟩ | ⟨e, rfl⟩ | ⟨e, -⟩ <;> first | exact absurd e (by decide) | cases e
  orphan := by
    intro i hi
    simp only [crate, List.mem_cons, List.not_mem_nil, or_false] at hi
    rcases hi with rfl | rfl | rfl | rfl
    · exact .inl ⟨"MyError", [], rfl, by simp [crate]⟩
    · exact .inl ⟨"MyError", [], rfl, by simp [crate]⟩
    · exact .inl ⟨"MyError", [], rfl, by simp [crate]⟩
    · exact .inl ⟨"MyOtherError", [], rfl, by simp [crate]⟩
  super := by
    intro ty h
    simp [crate] at h

theorem derived_compiles : (crate.add (both input)).Compiles :=
  (derive_compiles_iff crate_compiles (by simp [crate, input]) (by simp [crate, input])).mpr
    ⟨by simp [input], .impl (by simp [crate, self, input, myError]), .impl (by simp [crate, self, input, myError]),
      by decide, by decide⟩

end Sample

/-- `MyError` can be the error type, and streams can fail with it. -/
example : (Sample.crate.add (both Sample.input)).Usable Sample.myError ∧
    (Sample.crate.add (both Sample.input)).Streams Sample.myError Sample.myError :=
  ⟨(derive_usable Sample.derived_compiles).1, ((derive_usable Sample.derived_compiles).2 _).mpr
    ⟨.inl rfl, .impl (by simp [Crate.add, Sample.crate]), .impl (by simp [Crate.add, Sample.crate])⟩⟩

/-- `MyOtherError` is converted, but is not `Clone`: streams cannot fail with it. -/
example : (Sample.crate.add (both Sample.input)).Converts Sample.myOtherError Sample.myError ∧
    ¬ (Sample.crate.add (both Sample.input)).Streams Sample.myOtherError Sample.myError := by
  refine ⟨⟨(derive_usable Sample.derived_compiles).1.1, .impl (by simp [Crate.add, Sample.crate]),
    .impl (by simp [Crate.add, Sample.crate])⟩, fun h => ?_⟩
  have := (((derive_usable Sample.derived_compiles).2 _).mp h).2.2
  generalize hty : Sample.myOtherError = ty at this
  cases this with
  | impl h => subst hty; revert h; decide
  | infallible => exact absurd hty (by decide)
  | noUserError => exact absurd hty (by decide)

/-- **C75, what is missing.** The derive does not compile for a type with a parameter, although all that it needs is
implemented: `struct E<T>(T)`, or `struct E<'a>(&'a str)`. -/
theorem generics_refuted : ¬ ∀ (C : Crate) (d : DeriveInput), C.Compiles → (d.ident, d.generics) ∈ C.types →
    (∀ gs, (d.ident, gs) ∈ C.types → gs = d.generics) →
    (∀ n, C.Implements .error ⟨[d.ident], [n]⟩ ∧ C.Implements .clone ⟨[d.ident], [n]⟩ ∨ n ≠ 0) →
    (∀ ty, ⟨.from infallible, ty⟩ ∉ C.impls ∧ ⟨.parserUserError, ty⟩ ∉ C.impls) → (C.add (both d)).Compiles := by
  intro h
  let C : Crate := ⟨[("E", [⟨true⟩])], [⟨.error, ⟨["E"], [0]⟩⟩, ⟨.clone, ⟨["E"], [0]⟩⟩]⟩
  have hC : C.Compiles := by
    refine ⟨?_, ⟨by decide, fun ty h => by simp [C] at h⟩, ?_, fun ty h => by simp [C] at h⟩
    · intro i hi
      have : C.Applied ⟨["E"], [0]⟩ := by
        intro x gs hx hgs
        cases hx
        simp [C] at hgs
        subst hgs
        simp
      simp only [C, List.mem_cons, List.not_mem_nil, or_false] at hi
      rcases hi with rfl | rfl <;> exact ⟨this, fun src e => by cases e⟩
    · intro i hi
      refine .inl ⟨"E", [⟨true⟩], ?_, by simp [C]⟩
      simp only [C, List.mem_cons, List.not_mem_nil, or_false] at hi
      rcases hi with rfl | rfl <;> rfl
  have h1 := h C ⟨"E", [⟨true⟩]⟩ hC (by simp [C]) (by simp [C])
    (by
      intro n
      by_cases hn : n = 0
      · subst hn
        exact .inl ⟨.impl (by simp [C]), .impl (by simp [C])⟩
      · exact .inr hn)
    (by intro ty; simp [C])
  have := ((derive_compiles_iff hC (by simp [C]) (by simp [C])).mp h1).1 ⟨true⟩ (by simp)
  cases this

end Verif.C75
