import Verif.Model.LRTable

/-!
# Model of `lr_table/src/lr_state_map.rs`

A `HashMap` is an association list in insertion order; where the code iterates over one, the order is
given by a `HashOrder`.
-/

namespace Verif

/-- The order in which hash maps and hash sets yield their entries: an arbitrary rearrangement, which may be
different for every map (`site` names the map; Rust seeds each map differently). -/
structure HashOrder where
  ord : {α : Type} → (site : List Nat) → List α → List α
  perm : ∀ {α : Type} (site : List Nat) (l : List α), (ord site l).Perm l

/-- Insertion order. -/
def HashOrder.id : HashOrder := ⟨fun _ l => l, fun _ l => .refl l⟩

variable {T L : Type} [DecidableEq T] [DecidableEq L]

/-- lr_state_map.rs:30-35 `LRStateType`. -/
inductive StateType (T : Type) where
  | reduce (label : Nat)
  | terminal (token : AugTok T)
  | root
deriving DecidableEq, Repr

/-- lr_state_map.rs:38-57 `verify_compatible`. -/
def StateType.verifyCompatible : StateType T → StateType T → Outcome (LRTableError T L) Unit
  | .reduce a, .reduce b => if a ≠ b then Outcome.err .stateResolveConflict else pure ()
  | .terminal a, .terminal b => if a ≠ b then Outcome.err .stateResolveConflict else pure ()
  | .root, .root => pure ()
  | _, _ => Outcome.err .stateResolveConflict

/-- lr_state_map.rs:16-28 `insert_state_and_type`. -/
def insertStateAndType (state : Nat) (ty : StateType T) (map : List (Nat × StateType T)) :
    Outcome (LRTableError T L) (List (Nat × StateType T)) :=
  match map.lookup state with
  | some existing => do
    existing.verifyCompatible ty
    pure map
  | none => pure (map ++ [(state, ty)])

/-- lr_state_map.rs:60-65 `LRStateInfo`. -/
structure StateInfo (T : Type) where
  prevStates : List Nat
  returnType : StateType T
deriving DecidableEq, Repr

/-- lr_state_map.rs:73-76: the loop of `build_from_state_map`. -/
def StateInfo.verifyAll (returnType : StateType T) : List (Nat × StateType T) →
    Outcome (LRTableError T L) (List Nat)
  | [] => pure []
  | (state, ty) :: rest => do
    returnType.verifyCompatible ty
    let states ← verifyAll returnType rest
    pure (state :: states)

/-- lr_state_map.rs:68-82 `build_from_state_map`, on the entries in the order of iteration. -/
def StateInfo.build (entries : List (Nat × StateType T)) : Outcome (LRTableError T L) (StateInfo T) :=
  match entries with
  | [] => Outcome.err .unresolvedStates
  | (state1, returnType) :: rest => do
    let states ← verifyAll returnType rest
    pure ⟨state1 :: states, returnType⟩

/-- lr_state_map.rs:94-99 `LRStateMap`. -/
structure StateMap (T : Type) where
  stateMap : List (StateInfo T)
deriving DecidableEq, Repr

namespace StateMap

/-- `insert_state_and_type(state, ty, &mut state_map[target])?`. -/
def addEdge (state : Nat) (ty : StateType T) (target : Nat) (maps : List (List (Nat × StateType T))) :
    Outcome (LRTableError T L) (List (List (Nat × StateType T))) := do
  let map ← Outcome.index maps target
  let map ← insertStateAndType state ty map
  pure (maps.set target map)

/-- lr_state_map.rs:117-126: the shift actions of a state. -/
def addShifts (state : Nat) : List (AugTok T × Action) → List (List (Nat × StateType T)) →
    Outcome (LRTableError T L) (List (List (Nat × StateType T)))
  | [], maps => pure maps
  | (token, .shift next) :: rest, maps => do
    let maps ← addEdge state (.terminal token) next maps
    addShifts state rest maps
  | (_, _) :: rest, maps => addShifts state rest maps

/-- lr_state_map.rs:128-134: the goto actions of a state. -/
def addGotos (state : Nat) : List (Nat × Nat) → List (List (Nat × StateType T)) →
    Outcome (LRTableError T L) (List (List (Nat × StateType T)))
  | [], maps => pure maps
  | (label, next) :: rest, maps => do
    let maps ← addEdge state (.reduce label) next maps
    addGotos state rest maps

/-- lr_state_map.rs:116-135: the loop over the states. -/
def addStates (ig : IndexedGrammar T L) (table : LRTable) : List Nat → List (List (Nat × StateType T)) →
    Outcome (LRTableError T L) (List (List (Nat × StateType T)))
  | [], maps => pure maps
  | state :: rest, maps => do
    let actions ← table.stateActions ig state
    let maps ← addShifts state actions maps
    let gotos ← table.gotoActions ig state
    let maps ← addGotos state gotos maps
    addStates ig table rest maps

/-- lr_state_map.rs:138-141: `build_from_state_map` for each map (the first error is returned). -/
def buildInfos (o : HashOrder) : Nat → List (List (Nat × StateType T)) →
    Outcome (LRTableError T L) (List (StateInfo T))
  | _, [] => pure []
  | i, map :: rest => do
    let info ← StateInfo.build (o.ord [0, i] map)
    let infos ← buildInfos o (i + 1) rest
    pure (info :: infos)

/-- lr_state_map.rs:102-147 `build_from_lr_table`. -/
def build (o : HashOrder) (ig : IndexedGrammar T L) (table : LRTable) :
    Outcome (LRTableError T L) (StateMap T) := do
  let maps := List.replicate table.numStates []
  Outcome.assert (table.numStates != 0) -- `state_map[0]` (:114) panics without states
  let maps := maps.set 0 [(LRTable.rootState, .root)]
  let maps ← addStates ig table table.states maps
  Outcome.assert (maps.length == table.numStates)
  let infos ← buildInfos o 0 maps
  pure ⟨infos⟩

variable {ε : Type}

/-- lr_state_map.rs:149-151 `state_type`. -/
def stateType (m : StateMap T) (state : Nat) : Outcome ε (StateType T) := do
  let info ← Outcome.index m.stateMap state
  pure info.returnType

/-- lr_state_map.rs:155-157 `back_edges`. -/
def backEdges (m : StateMap T) (state : Nat) : Outcome ε (List Nat) := do
  let info ← Outcome.index m.stateMap state
  pure info.prevStates

end StateMap
end Verif
