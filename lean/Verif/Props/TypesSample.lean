import Verif.Props.Types
import Verif.Props.GrammarSample

/-!
# C59 in concrete cases
-/

set_option autoImplicit false

namespace Verif.C59
open Spec GrammarSample

/-- The sample file with another type for its first label. -/
def withType (ty : TokenStream) : GrammarFile :=
  { file with declarations :=
    ⟨"S", some ty, [([.production "O", .production "L"], some (.brace, .punct '#' false (.ident "L" .nil)))]⟩ ::
      file.declarations.tail }

theorem withType_retyped (ty : TokenStream) : Retyped file (withType ty) where
  name := rfl
  terminal := .inr ⟨_, _, rfl, rfl⟩
  declarations := .cons ⟨rfl, rfl⟩ (.cons ⟨rfl, rfl⟩ (.cons ⟨rfl, rfl⟩ .nil))

theorem withType_types {ty ty' : TokenStream} (h : HasType (withType ty) ty') :
    ty' = ty ∨ ∃ s, tx.isIdentifier s = true ∧ ty' = .ident s .nil := by
  cases h with
  | terminal h =>
    rcases h with h | h
    · exact TerminalType.noConfusion h
    · cases h; exact .inr ⟨_, by decide +kernel, rfl⟩
  | error h => cases h; exact .inr ⟨_, by decide +kernel, rfl⟩
  | label hd h =>
    simp only [withType, file, List.tail_cons, List.mem_cons, List.not_mem_nil, or_false] at hd
    rcases hd with rfl | rfl | rfl
    · cases h; exact .inl rfl
    · cases h
    · cases h; exact .inr ⟨_, by decide +kernel, rfl⟩

theorem withType_consistent (ty : TokenStream) : ConsistentTypes tx (withType ty).declarations := by
  intro d hd d' hd' e
  simp only [withType, file, List.tail_cons, List.mem_cons, List.not_mem_nil, or_false] at hd hd'
  rcases hd with rfl | rfl | rfl <;> rcases hd' with rfl | rfl | rfl <;>
    first
    | exact rfl
    | exact trivial
    | (simp only at e; exact absurd e (by decide))

theorem digits : DigitsApart tx := by
  intro c h
  simp only [Char.isDigit, Bool.and_eq_true, decide_eq_true_eq, ge_iff_le, UInt32.le_iff_toNat_le] at h
  simp only [tx, Char.isAlpha, Char.isUpper, Char.isLower, Bool.or_eq_false_iff, Bool.and_eq_false_iff,
    decide_eq_false_iff_not, ge_iff_le, UInt32.le_iff_toNat_le]
  have h1 : '0'.val.toNat = 48 := rfl
  have h2 : '9'.val.toNat = 57 := rfl
  have h3 : 'A'.val.toNat = 65 := rfl
  have h4 : 'a'.val.toNat = 97 := rfl
  omega

/-- For the sample: a Rust type is accepted for the label exactly if it is plain. -/
theorem sample_exactly {ty : TokenStream} (hj : JointOk ty) (hr : RustType tx .type ty) :
    (∃ gi, parseGrammar tx 1000 (tokenize tx .empty (C37.fileTokens unprint (withType ty))) = .ok gi) ↔
      PlainType tx ty := by
  obtain ⟨gi, hg⟩ := accepted
  rw [accepts_exactly_plain digits printable hg (withType_retyped ty) ?_ (withType_consistent ty)]
  · constructor
    · intro h
      exact h ty (.label (d := ⟨"S", some ty, _⟩) (.head _) rfl)
    · intro h ty' hty
      rcases withType_types hty with rfl | ⟨s, hs, rfl⟩
      · exact h
      · exact .name (ident_of hs)
  · intro ty' hty
    rcases withType_types hty with rfl | ⟨s, hs, rfl⟩
    · exact ⟨hj, hr⟩
    · exact ⟨trivial, .name (ident_of hs)⟩

/-- `Vec<Option<std::u8>>` -/
def nested : TokenStream :=
  .ident "Vec" (.punct '<' false (.ident "Option" (.punct '<' false (.ident "std" (.punct ':' true (.punct ':' false
    (.ident "u8" (.punct '>' true (.punct '>' false .nil)))))))))

/-- `HashMap<K, V>` -/
def map : TokenStream :=
  .ident "HashMap" (.punct '<' false (.ident "K" (.punct ',' false (.ident "V" (.punct '>' false .nil)))))

/-- `&'static str` -/
def staticStr : TokenStream := .punct '&' true (.punct '\'' true (.ident "static" (.ident "str" .nil)))

theorem nested_plain : PlainType tx nested :=
  .generic (ident_of (by decide +kernel)) (ty := .ident "Option" (.punct '<' false (.ident "std" (.punct ':' true
    (.punct ':' false (.ident "u8" (.punct '>' true .nil))))))) (.generic (ident_of (by decide +kernel))
    (ty := .ident "std" (.punct ':' true (.punct ':' false (.ident "u8" .nil))))
    (.path (ident_of (by decide +kernel)) (.name (ident_of (by decide +kernel)))))

theorem map_type : RustType tx .type map :=
  .generic (ident_of (by decide +kernel)) (as := .ident "K" (.punct ',' false (.ident "V" .nil)))
    (.more (as := .ident "K" .nil) (.one (.name (ident_of (by decide +kernel))))
      (.one (.name (ident_of (by decide +kernel)))))

theorem staticStr_type : RustType tx .type staticStr := .lifetime (.name (ident_of (by decide +kernel)))

theorem map_not_plain : ¬ PlainType tx map := fun h => plain_not_foreign h (by
  simp [map, Foreign])

theorem staticStr_not_plain : ¬ PlainType tx staticStr := fun h => plain_not_foreign h (by
  simp [staticStr, Foreign])

/-- `Vec<Option<std::u8>>` is accepted. -/
theorem nested_accepted :
    ∃ gi, parseGrammar tx 1000 (tokenize tx .empty (C37.fileTokens unprint (withType nested))) = .ok gi ∧
      C37.Reads gi (withType nested) := by
  obtain ⟨gi, hg⟩ := accepted
  obtain ⟨gi', h1, h2, -⟩ := types_replaced_partial printable hg (withType_retyped nested) (fun ty' hty => by
    rcases withType_types hty with rfl | ⟨s, hs, rfl⟩
    · exact ⟨by simp [nested, JointOk], nested_plain⟩
    · exact ⟨trivial, .name (ident_of hs)⟩) (withType_consistent nested)
  exact ⟨gi', h1, h2⟩

/-- The full statement fails: an accepted file is rejected once one of its labels has the type `HashMap<K, V>`. -/
theorem map_rejected : JointOk (C37.fileTokens unprint (withType map)) ∧
    ∃ e, parseGrammar tx 1000 (tokenize tx .empty (C37.fileTokens unprint (withType map))) = .err e := by
  have hj : JointOk (C37.fileTokens unprint (withType map)) := file_joint printable (withType_retyped map)
    fun ty' hty => by
      rcases withType_types hty with rfl | ⟨s, hs, rfl⟩
      · simp [map, JointOk]
      · trivial
  exact ⟨hj, foreign_rejected hj (foreign_file (.label (d := ⟨"S", some map, _⟩) (.head _) rfl)
    ((plain_or_foreign digits map_type).resolve_left map_not_plain)) _⟩

/-- So it is with `&'static str`. -/
theorem staticStr_rejected : JointOk (C37.fileTokens unprint (withType staticStr)) ∧
    ∃ e, parseGrammar tx 1000 (tokenize tx .empty (C37.fileTokens unprint (withType staticStr))) = .err e := by
  have hj : JointOk (C37.fileTokens unprint (withType staticStr)) := file_joint printable (withType_retyped staticStr)
    fun ty' hty => by
      rcases withType_types hty with rfl | ⟨s, hs, rfl⟩
      · simp [staticStr, JointOk]
      · trivial
  exact ⟨hj, foreign_rejected hj (foreign_file (.label (d := ⟨"S", some staticStr, _⟩) (.head _) rfl)
    ((plain_or_foreign digits staticStr_type).resolve_left staticStr_not_plain)) _⟩

/-- The hypotheses of `type_rejected` are met by a file. -/
example : ∃ e, parseGrammar tx 5 (tokenize tx .empty (.ident "x" (map.append (.ident "y" .nil)))) = .err e :=
  type_rejected digits (a := .ident "x" .nil) (b := .ident "y" .nil) (by simp [map, JointOk, TokenStream.append]) rfl
    map_type map_not_plain 5

end Verif.C59
