import Verif.Spec.Related
import Verif.Proof.Machine
import Verif.Proof.GenDet

/-!
# Two parsers for the same rules
-/

set_option autoImplicit false
set_option linter.unusedSectionVars false

namespace Verif.Spec

section
variable {T L A A' V V' E E' σ σ' : Type} {P : List (Rule T L)} {m : A → T → Prop} {m' : A' → T → Prop}
  {RA : A → A' → Prop}

/-- Forests of the same rules, for the same nodes, over corresponding tokens. -/
inductive Twins (P : List (Rule T L)) (m : A → T → Prop) (RA : A → A' → Prop) :
    List (Node T L) → Forest A → Forest A' → Prop
  | nil : Twins P m RA [] .nil .nil
  | tok {t : T} {γ : List (Node T L)} {a : A} {a' : A'} {f : Forest A} {f' : Forest A'} :
      m a t → RA a a' → Twins P m RA γ f f' → Twins P m RA (.terminal (.token t) :: γ) (.tok a f) (.tok a' f')
  | node {i : Nat} {r : Rule T L} {γ : List (Node T L)} {c f : Forest A} {c' f' : Forest A'} :
      P[i]? = some r → Twins P m RA (rhs r) c c' → Twins P m RA γ f f' →
      Twins P m RA (.production r.symbol :: γ) (.node i c f) (.node i c' f')

theorem Twins.append {γ δ : List (Node T L)} {ts us : List (Tree A)} {ts' us' : List (Tree A')}
    (h : Twins P m RA γ (.ofTrees ts) (.ofTrees ts')) (h' : Twins P m RA δ (.ofTrees us) (.ofTrees us')) :
    Twins P m RA (γ ++ δ) (.ofTrees (ts ++ us)) (.ofTrees (ts' ++ us')) := by
  induction ts generalizing γ ts' with
  | nil =>
    match ts', h with
    | [], .nil => exact h'
    | .leaf _ :: _, h => cases h
    | .node _ _ :: _, h => cases h
  | cons t ts ih =>
    match t, ts', h with
    | .leaf a, .leaf a' :: ts', .tok h1 h2 h3 => exact .tok h1 h2 (ih h3)
    | .node i c, .node _ c' :: ts', .node h1 h2 h3 => exact .node h1 h2 (ih h3)
    | .leaf _, [], h => cases h
    | .node _ _, [], h => cases h

theorem Twins.split {γ δ : List (Node T L)} {ts : List (Tree A)} {ts' : List (Tree A')}
    (h : Twins P m RA (γ ++ δ) (.ofTrees ts) (.ofTrees ts')) :
    ∃ us us1 us' us1', ts = us ++ us1 ∧ ts' = us' ++ us1' ∧ us.length = γ.length ∧ us'.length = γ.length ∧
      Twins P m RA γ (.ofTrees us) (.ofTrees us') ∧ Twins P m RA δ (.ofTrees us1) (.ofTrees us1') := by
  induction γ generalizing ts ts' with
  | nil => exact ⟨[], ts, [], ts', rfl, rfl, rfl, rfl, .nil, h⟩
  | cons X γ ih =>
    match ts, ts', h with
    | .leaf a :: ts, .leaf a' :: ts', .tok h1 h2 h3 =>
      obtain ⟨us, us1, us', us1', rfl, rfl, e1, e2, h4, h5⟩ := ih h3
      exact ⟨.leaf a :: us, us1, .leaf a' :: us', us1', rfl, rfl, by simp [e1], by simp [e2], .tok h1 h2 h4, h5⟩
    | .node i c :: ts, .node _ c' :: ts', .node h1 h2 h3 =>
      obtain ⟨us, us1, us', us1', rfl, rfl, e1, e2, h4, h5⟩ := ih h3
      exact ⟨.node i c :: us, us1, .node i c' :: us', us1', rfl, rfl, by simp [e1], by simp [e2], .node h1 h2 h4, h5⟩

theorem Twins.length {γ : List (Node T L)} {ts : List (Tree A)} {ts' : List (Tree A')}
    (h : Twins P m RA γ (.ofTrees ts) (.ofTrees ts')) : ts.length = γ.length ∧ ts'.length = γ.length := by
  obtain ⟨us, us1, us', us1', rfl, rfl, e1, e2, -, h5⟩ := Twins.split (γ := γ) (δ := []) (by simpa using h)
  match us1, us1', h5 with
  | [], [], _ => simp [e1, e2]
  | .leaf _ :: _, _, h => cases h
  | .node _ _ :: _, _, h => cases h
  | [], .leaf _ :: _, h => cases h
  | [], .node _ _ :: _, h => cases h

theorem Twins.reduce {γ : List (Node T L)} {i : Nat} {r : Rule T L} {ts : List (Tree A)} {ts' : List (Tree A')}
    (hi : P[i]? = some r) (h : Twins P m RA (γ ++ rhs r) (.ofTrees ts) (.ofTrees ts')) :
    Twins P m RA (γ ++ [.production r.symbol]) (.ofTrees (reduceTrees i (rhs r).length ts))
      (.ofTrees (reduceTrees i (rhs r).length ts')) := by
  obtain ⟨us, us1, us', us1', rfl, rfl, e1, e2, h4, h5⟩ := h.split
  obtain ⟨e3, e4⟩ := h5.length
  have key : ∀ {B : Type} (x y : List (Tree B)), y.length = (rhs r).length →
      reduceTrees i (rhs r).length (x ++ y) = x ++ [.node i (.ofTrees y)] := by
    intro B x y hy
    simp [reduceTrees, hy]
  rw [key _ _ e3, key _ _ e4]
  exact h4.append (.node hi h5 .nil)

variable {first : List (Node T L) → AugTok T → Prop}

theorem Step.twins (hA : ∀ a a', RA a a' → ∀ t, m a t ↔ m' a' t) {c c' : Config T L A} {o : Option Nat}
    (h : Step P first m c c' o) {ts : List (Tree A')} {z : List A'} (ht : Twins P m RA c.stack (.ofTrees c.trees) (.ofTrees ts))
    (hz : List.Forall₂ RA c.input z) :
    ∃ ts' z', Step P first m' ⟨c.stack, ts, z⟩ ⟨c'.stack, ts', z'⟩ o ∧
      Twins P m RA c'.stack (.ofTrees c'.trees) (.ofTrees ts') ∧ List.Forall₂ RA c'.input z' := by
  cases h with
  | @shift γ ts0 a z0 t hm hd =>
    simp only at hz
    cases hz with
    | @cons _ b _ z' h2 h3 =>
      exact ⟨ts ++ [.leaf b], z', .shift ((hA _ _ h2 _).mp hm) hd, ht.append (us := [.leaf a]) (us' := [.leaf b])
        (.tok hm h2 .nil), h3⟩
  | @reduce γ ts0 z0 x i r hi hl hd =>
    have hz' : Alike m m' z0 z := List.Forall₂.imp (fun a a' h t => hA a a' h t) hz
    exact ⟨_, z, .reduce hi (hz'.look hl) hd, ht.reduce hi, hz⟩

theorem Steps.twins (hA : ∀ a a', RA a a' → ∀ t, m a t ↔ m' a' t) {c c' : Config T L A} {tr : List Nat}
    (h : Steps P first m c c' tr) :
    ∀ {ts : List (Tree A')} {z : List A'}, Twins P m RA c.stack (.ofTrees c.trees) (.ofTrees ts) →
      List.Forall₂ RA c.input z →
      ∃ ts' z', Steps P first m' ⟨c.stack, ts, z⟩ ⟨c'.stack, ts', z'⟩ tr ∧
        Twins P m RA c'.stack (.ofTrees c'.trees) (.ofTrees ts') ∧ List.Forall₂ RA c'.input z' := by
  induction h with
  | refl c => intro ts z ht hz; exact ⟨ts, z, .refl _, ht, hz⟩
  | step h1 _ ih =>
    intro ts z ht hz
    obtain ⟨ts1, z1, h2, ht1, hz1⟩ := h1.twins hA ht hz
    obtain ⟨ts2, z2, h3, h4, h5⟩ := ih ht1 hz1
    exact ⟨ts2, z2, .step h2 h3, h4, h5⟩

variable {RV : Node T L → V → V' → Prop} {RE : E → E' → Prop} {Rw : σ → σ' → Prop} {Free : E → Prop}
  {tok : A → V} {tok' : A' → V'} {apply : Nat → List V → σ → Except E V × σ} {apply' : Nat → List V' → σ' → Except E' V' × σ'}

theorem Outcomes.andThen {α α' β β' : Type} {R : α → α' → Prop} {S : β → β' → Prop} {x : Except E α × σ}
    {x' : Except E' α' × σ'} {f : α → σ → Except E β × σ} {f' : α' → σ' → Except E' β' × σ'}
    (h : Outcomes R RE Rw Free x x') (hf : ∀ a a' w w', R a a' → Rw w w' → Outcomes S RE Rw Free (f a w) (f' a' w')) :
    Outcomes S RE Rw Free (Spec.andThen x f) (Spec.andThen x' f') := by
  cases h with
  | ok h1 h2 => exact hf _ _ _ _ h1 h2
  | error h1 h2 => exact .error h1 h2
  | free h1 => exact .free h1

/-- Corresponding forests have corresponding values. -/
theorem Twins.eval (hT : ∀ a a' t, RA a a' → m a t → RV (.terminal (.token t)) (tok a) (tok' a'))
    (hC : Constructors P RV RE Rw Free apply apply') {γ : List (Node T L)} {f : Forest A} {f' : Forest A'}
    (h : Twins P m RA γ f f') : ∀ {w : σ} {w' : σ'}, Rw w w' →
      Outcomes (Values RV γ) RE Rw Free (eval tok apply f w) (eval tok' apply' f' w') := by
  induction h with
  | nil => intro w w' hw; exact .ok .nil hw
  | tok h1 h2 _ ih =>
    intro w w' hw
    exact (ih hw).andThen fun vs vs' w w' hv hw => .ok (.cons (hT _ _ _ h2 h1) hv) hw
  | node h1 _ _ ih1 ih2 =>
    intro w w' hw
    refine (ih1 hw).andThen fun us us' w w' hu hw => ?_
    refine (hC _ _ _ _ _ _ h1 hu hw).andThen fun v v' w w' hv hw => ?_
    exact (ih2 hw).andThen fun vs vs' w w' hvs hw => .ok (.cons hv hvs) hw

/-- **Ends of corresponding parses.** -/
theorem Ends.twins (hu : RootOk P) (hA : ∀ a a', RA a a' → ∀ t, m a t ↔ m' a' t)
    (hT : ∀ a a' t, RA a a' → m a t → RV (.terminal (.token t)) (tok a) (tok' a'))
    (hC : Constructors P RV RE Rw Free apply apply') {root : Rule T L} (hroot : P[0]? = some root)
    {w0 : σ} {w0' : σ'} (hw : Rw w0 w0') {W : List A} {W' : List A'} (hW : List.Forall₂ RA W W')
    {r : End A V E} {w : σ} {z : List A} (h : Ends P first m tok apply w0 W r w z) :
    (∃ e, r = .failed e ∧ Free e) ∨
    ∃ r' w' z', Ends P first m' tok' apply' w0' W' r' w' z' ∧ EndsAlike RA (RV (.production root.symbol)) RE r r' ∧
      Rw w w' ∧ List.Forall₂ RA z z' := by
  have key : ∀ {c : Config T L A} {tr : List Nat}, Steps P first m (.start W) c tr →
      ∃ ts' z', Steps P first m' (.start W') ⟨c.stack, ts', z'⟩ tr ∧
        Twins P m RA c.stack (.ofTrees c.trees) (.ofTrees ts') ∧ List.Forall₂ RA c.input z' := fun hs =>
    Steps.twins hA hs (ts := []) (z := W') .nil hW
  have alike : ∀ {x : List A} {x' : List A'}, List.Forall₂ RA x x' → Alike m m' x x' := fun h =>
    List.Forall₂.imp (fun a a' h t => hA a a' h t) h
  cases h with
  | @accept c tr vs w1 _ v hs hev ha hap =>
    obtain ⟨ts', z', hs', ht, hz⟩ := key hs
    obtain ⟨-, r0, hr0, hst, -⟩ := hs.sound hu ha
    rw [hroot] at hr0
    cases hr0
    have hE := ht.eval hT hC hw
    rw [hev] at hE
    generalize hx : Spec.eval tok' apply' (.ofTrees ts') w0' = x at hE
    cases hE with
    | ok h1 h2 =>
      have hO := hC 0 root _ _ _ _ hroot (hst ▸ h1) h2
      rw [hap] at hO
      generalize hy : apply' 0 _ _ = y at hO
      cases hO with
      | ok h3 h4 => exact .inr ⟨_, _, _, .accept hs' hx ((alike hz).accepting ha) hy, .value h3, h4, hz⟩
  | @acceptFail c tr vs w1 _ e hs hev ha hap =>
    obtain ⟨ts', z', hs', ht, hz⟩ := key hs
    obtain ⟨-, r0, hr0, hst, -⟩ := hs.sound hu ha
    rw [hroot] at hr0
    cases hr0
    have hE := ht.eval hT hC hw
    rw [hev] at hE
    generalize hx : Spec.eval tok' apply' (.ofTrees ts') w0' = x at hE
    cases hE with
    | ok h1 h2 =>
      have hO := hC 0 root _ _ _ _ hroot (hst ▸ h1) h2
      rw [hap] at hO
      generalize hy : apply' 0 _ _ = y at hO
      cases hO with
      | error h3 h4 => exact .inr ⟨_, _, _, .acceptFail hs' hx ((alike hz).accepting ha) hy, .failed h3, h4, hz⟩
      | free h3 => exact .inl ⟨_, rfl, h3⟩
  | @reduceFail c c' tr i vs w1 _ e hs hev hstep hev' =>
    obtain ⟨ts', z', hs', ht, hz⟩ := key hs
    obtain ⟨ts1, z1, hstep', ht1, hz1⟩ := hstep.twins hA ht hz
    have hE := ht.eval hT hC hw
    rw [hev] at hE
    generalize hx : Spec.eval tok' apply' (.ofTrees ts') w0' = x at hE
    have hE1 := ht1.eval hT hC hw
    rw [hev'] at hE1
    generalize hy : Spec.eval tok' apply' (.ofTrees ts1) w0' = y at hE1
    cases hE with
    | ok h1 h2 =>
      cases hE1 with
      | error h3 h4 => exact .inr ⟨_, _, _, .reduceFail hs' hx hstep' hy, .failed h3, h4, hz⟩
      | free h3 => exact .inl ⟨_, rfl, h3⟩
  | @stuck c tr vs _ hs hev hst =>
    obtain ⟨ts', z', hs', ht, hz⟩ := key hs
    have hE := ht.eval hT hC hw
    rw [hev] at hE
    generalize hx : Spec.eval tok' apply' (.ofTrees ts') w0' = x at hE
    cases hE with
    | ok h1 h2 =>
      refine .inr ⟨_, _, _, .stuck hs' hx ((alike hz).stuck hst), ?_, h2, hz⟩
      generalize c.input = y at hz
      cases hz with
      | nil => exact .ended
      | cons h3 _ => exact .unexpected h3

end
end Verif.Spec
