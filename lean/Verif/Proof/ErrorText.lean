import Verif.Model.ErrorText
import Verif.Proof.Display

/-!
# Texts of errors
-/

set_option linter.unusedSectionVars false
set_option autoImplicit false

namespace Verif.ErrorText
open Display

/-- Equal texts that begin with words without a separator, each followed by it. -/
theorem append_cons_inj {c : Char} : ∀ {a b x y : List Char}, c ∉ a → c ∉ b → a ++ c :: x = b ++ c :: y →
    a = b ∧ x = y
  | [], [], _, _, _, _, h => ⟨rfl, (List.cons.inj h).2⟩
  | [], d :: b, _, _, _, hb, h => by
    have := (List.cons.inj h).1
    subst this
    exact absurd (List.mem_cons_self ..) hb
  | d :: a, [], _, _, ha, _, h => by
    have := (List.cons.inj h).1
    subst this
    exact absurd (List.mem_cons_self ..) ha
  | d :: a, e :: b, _, _, ha, hb, h => by
    obtain ⟨h1, h2⟩ := List.cons.inj h
    obtain ⟨h3, h4⟩ := append_cons_inj (fun m => ha (List.mem_cons_of_mem _ m))
      (fun m => hb (List.mem_cons_of_mem _ m)) h2
    exact ⟨by rw [h1, h3], h4⟩

theorem decimal_inj {m n : Nat} (h : decimal m = decimal n) : m = n := by
  have := number_decimal m
  rw [h, number_decimal n] at this
  exact (Option.some.inj this).symm

theorem ruleId_inj {m n : Nat} {x y : List Char} (h : ruleId m ++ x = ruleId n ++ y) : m = n ∧ x = y := by
  unfold ruleId at h
  simp only [List.append_assoc, List.cons_append, List.nil_append] at h
  obtain ⟨h1, h2⟩ := append_cons_inj (not_mem_decimal (by decide)) (not_mem_decimal (by decide))
    (List.append_cancel_left h)
  exact ⟨decimal_inj h1, h2⟩

theorem joinComma_inj : ∀ {l l' : List (List Char)}, l ≠ [] → l' ≠ [] → (∀ s ∈ l, ',' ∉ s) → (∀ s ∈ l', ',' ∉ s) →
    joinComma l = joinComma l' → l = l'
  | [], _, h, _, _, _, _ => absurd rfl h
  | _, [], _, h, _, _, _ => absurd rfl h
  | [a], [b], _, _, _, _, h => by simpa [joinComma] using h
  | [a], b :: c :: l, _, _, h1, _, h => by
    simp only [joinComma] at h
    exact absurd (show ',' ∈ a by rw [h]; simp) (h1 a (by simp))
  | a :: c :: l, [b], _, _, _, h2, h => by
    simp only [joinComma] at h
    exact absurd (show ',' ∈ b by rw [← h]; simp) (h2 b (by simp))
  | a :: c :: l, b :: d :: l', _, _, h1, h2, h => by
    simp only [joinComma] at h
    obtain ⟨h3, h4⟩ := append_cons_inj (h1 a (by simp)) (h2 b (by simp)) h
    rw [h3, joinComma_inj (by simp) (by simp) (fun s hs => h1 s (List.mem_cons_of_mem _ hs))
      (fun s hs => h2 s (List.mem_cons_of_mem _ hs)) (List.cons.inj h4).2]

section
variable {T L : Type}

/-- The kind of an error. -/
def kind : LRTableError T L → Fin 10
  | .emptyGrammar => 0
  | .rootProductionRepeated => 1
  | .rootProductionReferenced => 2
  | .notConnected _ => 3
  | .unrecognizedLabel _ => 4
  | .shiftConflict _ => 5
  | .shiftReduceConflict _ _ => 6
  | .reduceConflict _ _ _ => 7
  | .unresolvedStates => 8
  | .stateResolveConflict => 9

/-- How texts of each kind begin. -/
def beginning : Fin 10 → String
  | 0 => "Build grammar error: grammar is empty"
  | 1 => "Build grammar error: the root production has multiple rules"
  | 2 => "Build grammar error: the root production is referenced by another rule"
  | 3 => "Build grammar error: The grammar is not fully connected: Rules disconnected: "
  | 4 => "Unrecognized label \""
  | 5 => "Shift conflict for lookahead "
  | 6 => "Shift/reduce conflict with rule "
  | 7 => "Reduce conflict between rule "
  | 8 => "Unresolved states while building the LR state map"
  | 9 => "Conflict resolving states while building the LR state map"

/-- How they go on. -/
def ending (token : T → List Char) (label : L → List Char) : LRTableError T L → List Char
  | .notConnected ls => joinComma (ls.map label)
  | .unrecognizedLabel l => label l ++ ['"']
  | .shiftConflict t => augTok token t
  | .shiftReduceConflict r t => ruleId r ++ (" and lookahead ".toList ++ augTok token t)
  | .reduceConflict r1 r2 t => ruleId r1 ++ (" and rule ".toList ++ (ruleId r2 ++
      (" with lookahead ".toList ++ augTok token t)))
  | _ => []

theorem text_eq (token : T → List Char) (label : L → List Char) (e : LRTableError T L) :
    text token label e = (beginning (kind e)).toList ++ ending token label e := by
  cases e
  case notConnected => exact rfl
  case unrecognizedLabel => exact rfl
  case shiftConflict => exact rfl
  case shiftReduceConflict => exact rfl
  case reduceConflict => exact rfl
  all_goals exact (List.append_nil _).symm

theorem beginning_prefix : ∀ k k' : Fin 10, (beginning k).toList <+: (beginning k').toList → k = k' := by
  decide +kernel

theorem kind_eq_of_text {token token' : T → List Char} {label label' : L → List Char} {e e' : LRTableError T L}
    (h : text token label e = text token' label' e') :
    kind e = kind e' ∧ ending token label e = ending token' label' e' := by
  rw [text_eq, text_eq] at h
  have hk : kind e = kind e' := by
    have h1 : (beginning (kind e)).toList <+: text token label e := by rw [text_eq]; exact List.prefix_append _ _
    have h2 : (beginning (kind e')).toList <+: text token label e := by
      rw [text_eq, h]; exact List.prefix_append _ _
    rcases List.prefix_or_prefix_of_prefix h1 h2 with h | h
    · exact beginning_prefix _ _ h
    · exact (beginning_prefix _ _ h).symm
  rw [hk] at h
  exact ⟨hk, List.append_cancel_left h⟩

/-- The lookahead of an error. -/
def lookahead : LRTableError T L → Option (AugTok T)
  | .shiftConflict t => some t
  | .shiftReduceConflict _ t => some t
  | .reduceConflict _ _ t => some t
  | _ => none

/-- The labels of an error. -/
def labels : LRTableError T L → List L
  | .notConnected ls => ls
  | .unrecognizedLabel l => [l]
  | _ => []

/-- Errors printed alike are equal, if lookaheads and labels printed alike are. -/
theorem text_inj {token : T → List Char} {label : L → List Char} {e e' : LRTableError T L}
    (ht : ∀ t ∈ lookahead e, ∀ t' ∈ lookahead e', augTok token t = augTok token t' → t = t')
    (hl : ∀ l ∈ labels e, ∀ l' ∈ labels e', label l = label l' → l = l')
    (hc : ∀ l, l ∈ labels e ∨ l ∈ labels e' → ',' ∉ label l) (hn : e ≠ .notConnected []) (hn' : e' ≠ .notConnected [])
    (h : text token label e = text token label e') : e = e' := by
  obtain ⟨hk, h0⟩ := kind_eq_of_text h
  clear h
  have h := h0
  clear h0
  cases e <;> cases e' <;> simp only [kind] at hk <;> first | (exact absurd hk (by decide)) | clear hk
  case emptyGrammar => rfl
  case rootProductionRepeated => rfl
  case rootProductionReferenced => rfl
  case unresolvedStates => rfl
  case stateResolveConflict => rfl
  case notConnected ls ls' =>
    simp only [ending] at h
    have := joinComma_inj (by simpa using fun e => hn (by rw [e])) (by simpa using fun e => hn' (by rw [e]))
      (fun s hs => by
        obtain ⟨l, hl, rfl⟩ := List.mem_map.mp hs
        exact hc l (.inl hl))
      (fun s hs => by
        obtain ⟨l, hl, rfl⟩ := List.mem_map.mp hs
        exact hc l (.inr hl)) h
    simp only [labels] at hl
    clear hn hn' hc h ht
    congr 1
    induction ls generalizing ls' with
    | nil => cases ls' with
      | nil => rfl
      | cons _ _ => cases this
    | cons a ls ih =>
      cases ls' with
      | nil => cases this
      | cons b ls' =>
        obtain ⟨h1, h2⟩ := List.cons.inj this
        rw [hl a (by simp) b (by simp) h1,
          ih _ (fun l hx l' hx' => hl l (List.mem_cons_of_mem _ hx) l' (List.mem_cons_of_mem _ hx')) h2]
  case unrecognizedLabel l l' =>
    simp only [ending] at h
    rw [hl l (by simp [labels]) l' (by simp [labels]) (List.append_cancel_right h)]
  case shiftConflict t t' =>
    rw [ht t (by simp [lookahead]) t' (by simp [lookahead]) h]
  case shiftReduceConflict r t r' t' =>
    simp only [ending] at h
    obtain ⟨rfl, h1⟩ := ruleId_inj h
    rw [ht t (by simp [lookahead]) t' (by simp [lookahead]) (List.append_cancel_left h1)]
  case reduceConflict r1 r2 t r1' r2' t' =>
    simp only [ending] at h
    obtain ⟨rfl, h1⟩ := ruleId_inj h
    obtain ⟨rfl, h2⟩ := ruleId_inj (List.append_cancel_left h1)
    rw [ht t (by simp [lookahead]) t' (by simp [lookahead]) (List.append_cancel_left h2)]

end
end Verif.ErrorText
