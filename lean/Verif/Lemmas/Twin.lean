import Verif.Lemmas.Shuffle
import Verif.Lemmas.PlanOk

/-!
# Planning does not look at the identity of new objects

Two states that differ only in the number of allocated pool objects, in the last pool id handed out and in the order of the delegators of
pools lead to the same plans, up to a shift of the new identities and ids.  No law of arithmetic is used.
-/

set_option linter.unusedSectionVars false

namespace RSE

variable {F : Type} [LinearOrder F]

/-! ### Two computations with related outcomes -/

/-- both return related values, or both raise the same exception -/
def Rel {α β : Type} (R : α → β → Prop) : Py α → Py β → Prop
  | .ok a, .ok b => R a b
  | .error e, .error e' => e = e'
  | _, _ => False

theorem Rel.bind {α β γ δ : Type} {R : α → β → Prop} {S : γ → δ → Prop} {x : Py α} {y : Py β} {f : α → Py γ} {g : β → Py δ}
    (h : Rel R x y) (hf : ∀ a b, x = .ok a → y = .ok b → R a b → Rel S (f a) (g b)) : Rel S (x >>= f) (y >>= g) := by
  cases x with
  | ok a => cases y with
    | ok b => exact hf a b rfl rfl h
    | error e => exact h.elim
  | error e => cases y with
    | ok b => exact h.elim
    | error e' => exact h

theorem Rel.of_eq {α : Type} {x y : Py α} (h : x = y) : Rel (fun a b => a = b) x y := by
  subst h
  cases x with
  | ok a => exact rfl
  | error e => exact rfl

theorem Rel.eq {α : Type} {x y : Py α} (h : Rel (fun a b => b = a) x y) : y = x := by
  cases x <;> cases y
  · exact congrArg _ (Eq.symm h)
  · exact h.elim
  · exact h.elim
  · exact congrArg _ h

/-! ### The shift -/

/-- objects with identity below `N` and ids up to `I` are the same on both sides, the later ones are shifted -/
structure Shift where
  N : Nat
  d : Nat
  I : Nat
  e : Nat

namespace Shift

def ref (h : Shift) (r : Nat) : Nat := if r < h.N then r else r + h.d
def pid (h : Shift) (p : Nat) : Nat := if p ≤ h.I then p else p + h.e

theorem ref_inj (h : Shift) {a b : Nat} (hab : h.ref a = h.ref b) : a = b := by unfold ref at hab; split at hab <;> split at hab <;> omega
theorem pid_lt (h : Shift) {a b : Nat} : h.pid a < h.pid b ↔ a < b := by unfold pid; split <;> split <;> omega
theorem pid_inj (h : Shift) {a b : Nat} (hab : h.pid a = h.pid b) : a = b := by unfold pid at hab; split at hab <;> split at hab <;> omega
theorem ref_old {h : Shift} {r : Nat} (hr : r < h.N) : h.ref r = r := if_pos hr
theorem ref_new {h : Shift} {r : Nat} (hr : h.N ≤ r) : h.ref r = r + h.d := if_neg (by omega)
theorem pid_old {h : Shift} {p : Nat} (hp : p ≤ h.I) : h.pid p = p := if_pos hp
theorem pid_new {h : Shift} {p : Nat} (hp : h.I < p) : h.pid p = p + h.e := if_neg (by omega)

/-- the shift on ranking keys -/
def key (h : Shift) (k : Key F) : Key F := toLex ((ofLex k).1, toLex ((ofLex (ofLex k).2).1, h.pid (ofLex (ofLex k).2).2))

theorem key_lt (h : Shift) {a b : Key F} : h.key a < h.key b ↔ a < b := by
  obtain ⟨a1, a2, a3, rfl⟩ : ∃ a1 a2 a3, a = toLex (a1, toLex (a2, a3)) := ⟨_, _, _, rfl⟩
  obtain ⟨b1, b2, b3, rfl⟩ : ∃ b1 b2 b3, b = toLex (b1, toLex (b2, b3)) := ⟨_, _, _, rfl⟩
  simp only [key, ofLex_toLex, Prod.Lex.toLex_lt_toLex, h.pid_lt]

theorem key_inj (h : Shift) {a b : Key F} (hab : h.key a = h.key b) : a = b := by
  rcases lt_trichotomy a b with hlt | heq | hlt
  · exact absurd (h.key_lt.2 hlt) (by rw [hab]; exact lt_irrefl _)
  · exact heq
  · exact absurd (h.key_lt.2 hlt) (by rw [hab]; exact lt_irrefl _)

/-- the shift on entries of a ranking -/
def entry (h : Shift) (e : Key F × Option Ref) : Key F × Option Ref := (h.key e.1, e.2.map h.ref)

theorem add_entry (h : Shift) (k : Key F) (v : Option Ref) (l : SKL (Key F) (Option Ref)) :
    SKL.add (h.key k) (v.map h.ref) (l.map h.entry) = (SKL.add k v l).map h.entry := by
  induction l with
  | nil => rfl
  | cons e t ih =>
    simp only [List.map_cons, SKL.add, entry, h.key_lt]
    split
    · rfl
    · rw [List.map_cons]; exact congrArg _ ih

theorem index_entry (h : Shift) (k : Key F) (v : Option Ref) (l : SKL (Key F) (Option Ref)) :
    SKL.index (h.key k) (v.map h.ref) (l.map h.entry) = SKL.index k v l := by
  induction l with
  | nil => rfl
  | cons e t ih =>
    simp only [List.map_cons, SKL.index, entry, h.key_lt]
    have h1 : (h.key e.1 = h.key k ∧ Option.map h.ref e.2 = Option.map h.ref v) ↔ (e.1 = k ∧ e.2 = v) := by
      constructor
      · rintro ⟨h1, h2⟩
        exact ⟨h.key_inj h1, Option.map_injective (fun _ _ hab => h.ref_inj hab) h2⟩
      · rintro ⟨h1, h2⟩; rw [h1, h2]; exact ⟨rfl, rfl⟩
    simp only [h1]
    have h2 : SKL.index (h.key k) (Option.map h.ref v) (List.map (fun e => (h.key e.1, Option.map h.ref e.2)) t) = SKL.index k v t := ih
    rw [show List.map h.entry t = List.map (fun e => (h.key e.1, Option.map h.ref e.2)) t from rfl, h2]

/-- the shift on the pools of a strategy -/
def owned (h : Shift) (d : Dict Ref) : Dict Ref := d.map (fun e => (h.pid e.1, h.ref e.2))

theorem owned_set (h : Shift) (d : Dict Ref) (k : Nat) (r : Ref) : (h.owned d).set (h.pid k) (h.ref r) = h.owned (d.set k r) := by
  induction d with
  | nil => rfl
  | cons e t ih =>
    simp only [owned, List.map_cons, Dict.set]
    by_cases he : e.1 = k
    · rw [if_pos (by rw [he]), if_pos he]; rfl
    · rw [if_neg (fun hh => he (h.pid_inj hh)), if_neg he, List.map_cons]; exact congrArg _ ih

theorem owned_vals (h : Shift) (d : Dict Ref) : Dict.vals (h.owned d) = (Dict.vals d).map h.ref := by
  unfold Dict.vals owned; rw [List.map_map, List.map_map]; rfl

theorem owned_length (h : Shift) (d : Dict Ref) : (h.owned d).length = d.length := List.length_map _

/-- the shift on strategies: allocations are to pools that exist on both sides -/
def strat (h : Shift) (τ : Strategy F) : Strategy F := { τ with owned := h.owned τ.owned }

end Shift

/-! ### Matching states -/

variable [Zero F] [One F] [Add F] [Sub F] [Mul F] [Div F] [Neg F] [NatCast F] [FSum F]

/-- the same pool, up to the shift of its id and the order of its delegators -/
structure Match (h : Shift) (p p' : Pool F) : Prop where
  id : p'.id = h.pid p.id
  cost : p'.cost = p.cost
  pledge : p'.pledge = p.pledge
  stake : p'.stake = p.stake
  owner : p'.owner = p.owner
  isPrivate : p'.isPrivate = p.isPrivate
  pp : p'.pp = p.pp
  margin : p'.margin = p.margin
  des : p'.des = p.des
  nodup : p.delegators.keys.Nodup
  nodup' : p'.delegators.keys.Nodup
  dels : ∀ b, p'.delegators.get? b = p.delegators.get? b

/-- a pool object whose id is known on both sides -/
def Old (h : Shift) (s : State F) (r : Ref) : Prop := r < h.N ∧ (s.heap r).id ≤ h.I

/-- the two states differ by a shift of the identities from `N` on and of the ids after `I`, and in the agents -/
structure Twin (h : Shift) (s s' : State F) : Prop where
  eq : s' = { s with heap := s'.heap, next := s.next + h.d, idSeq := s.idSeq + h.e, agents := s'.agents }
  N_le : h.N ≤ s.next
  I_le : h.I ≤ s.idSeq
  obj : ∀ r < s.next, (r < h.N → (s.heap r).id ≤ h.I) → Match h (s.heap r) (s'.heap (h.ref r))
  pool : ∀ pid r, s.pools.get? pid = some r → Old h s r ∧ (s.heap r).id = pid
  rank : ∀ r, some r ∈ s.rank.vals → Old h s r
  rankM : ∀ r, some r ∈ s.rankM.vals → Old h s r

namespace Twin
variable {h : Shift} {s s' : State F}

theorem rs (ht : Twin h s s') : s'.rs = s.rs := by rw [ht.eq]
theorem pools (ht : Twin h s s') : s'.pools = s.pools := by rw [ht.eq]
theorem ranks (ht : Twin h s s') : s'.rank = s.rank := by rw [ht.eq]
theorem ranksM (ht : Twin h s s') : s'.rankM = s.rankM := by rw [ht.eq]
theorem totalStake (ht : Twin h s s') : s'.totalStake = s.totalStake := by rw [ht.eq]
theorem extraFrac (ht : Twin h s s') : s'.extraFrac = s.extraFrac := by rw [ht.eq]
theorem relThr (ht : Twin h s s') : s'.relThr = s.relThr := by rw [ht.eq]
theorem absThr (ht : Twin h s s') : s'.absThr = s.absThr := by rw [ht.eq]
theorem next (ht : Twin h s s') : s'.next = s.next + h.d := by rw [ht.eq]
theorem idSeq (ht : Twin h s s') : s'.idSeq = s.idSeq + h.e := by rw [ht.eq]

theorem old (ht : Twin h s s') {r : Ref} (hr : Old h s r) : Match h (s.heap r) (s'.heap r) := by
  have := ht.obj r (lt_of_lt_of_le hr.1 ht.N_le) (fun _ => hr.2)
  rwa [Shift.ref_old hr.1] at this

theorem old_id (ht : Twin h s s') {r : Ref} (hr : Old h s r) : (s'.heap r).id = (s.heap r).id := by
  rw [(ht.old hr).id, Shift.pid_old hr.2]

theorem ranking (ht : Twin h s s') (me : Agent F) {r : Ref} (hr : some r ∈ rankingsOf s me) : Old h s r := by
  unfold rankingsOf at hr
  cases hp : me.profile <;> rw [hp] at hr
  · exact ht.rank r hr
  · exact ht.rankM r hr
  · exact ht.rankM r hr

theorem rankingsOf_eq (ht : Twin h s s') (me : Agent F) : rankingsOf s' me = rankingsOf s me := by
  unfold rankingsOf; rw [ht.ranks, ht.ranksM]

end Twin

theorem Match.key {h : Shift} {p p' : Pool F} (hm : Match h p p') : poolKey p' = h.key (poolKey p) := by
  unfold poolKey Shift.key; rw [hm.des, hm.pp, hm.id]; rfl

/-! ### Utilities -/

theorem accM_map {α β : Type} {f : α → Py F} {g : β → Py F} {φ : α → β} {l : List α} (hfg : ∀ x ∈ l, g (φ x) = f x) (u : F) :
    accM g (l.map φ) u = accM f l u := by
  induction l generalizing u with
  | nil => rfl
  | cons x t ih =>
    simp only [List.map_cons, accM, hfg x List.mem_cons_self]
    exact congrArg _ (funext fun y => ih (fun x hx => hfg x (List.mem_cons_of_mem _ hx)) _)

theorem accM_congr {α : Type} {f g : α → Py F} {l : List α} (hfg : ∀ x ∈ l, g x = f x) (u : F) : accM g l u = accM f l u := by
  have := accM_map (φ := id) (f := f) (g := g) (l := l) (fun x hx => hfg x hx) u
  rwa [List.map_id] at this

theorem mapM_map {α β γ : Type} {f : α → Py γ} {g : β → Py γ} {φ : α → β} {l : List α} (hfg : ∀ x ∈ l, g (φ x) = f x) :
    (l.map φ).mapM g = l.mapM f := by
  induction l with
  | nil => rfl
  | cons x t ih =>
    rw [List.map_cons, List.mapM_cons, List.mapM_cons, hfg x List.mem_cons_self, ih (fun x hx => hfg x (List.mem_cons_of_mem _ hx))]

/-- a reference that can be followed on both sides -/
def Known (h : Shift) (s : State F) (r : Ref) : Prop := r < s.next ∧ (r < h.N → (s.heap r).id ≤ h.I)

theorem Old.known {h : Shift} {s s' : State F} (ht : Twin h s s') {r : Ref} (hr : Old h s r) : Known h s r :=
  ⟨lt_of_lt_of_le hr.1 ht.N_le, fun _ => hr.2⟩

theorem nonMyopicStake_twin {h : Shift} {s s' : State F} (ht : Twin h s s') {l l' : SKL (Key F) (Option Ref)} {r : Ref} (hr : Known h s r)
    (hi : SKL.index (poolKey (s'.heap (h.ref r))) (some (h.ref r)) l' = SKL.index (poolKey (s.heap r)) (some r) l)
    (hv : l'.vals = l.vals.map (Option.map h.ref)) (hk : ∀ q, some q ∈ l.vals → Known h s q) :
    nonMyopicStake s'.rs s'.totalStake s'.heap l' (h.ref r) = nonMyopicStake s.rs s.totalStake s.heap l r := by
  unfold nonMyopicStake
  have hm := ht.obj r hr.1 hr.2
  simp only
  rw [hi, ht.rs, ht.totalStake, hm.pledge, hm.stake]
  refine congrArg _ (funext fun k => ?_)
  have h1 : (l'.vals.take k).mapM (entrySat s.rs s'.heap) = (l.vals.take k).mapM (entrySat s.rs s.heap) := by
    rw [hv, ← List.map_take]
    apply mapM_map
    intro x hx
    cases x with
    | none => rfl
    | some q =>
      have hq := hk q (List.mem_of_mem_take hx)
      show Except.ok _ = Except.ok _
      rw [(ht.obj q hq.1 hq.2).pledge]
  rw [h1]

theorem nonMyopicStake_rank {h : Shift} {s s' : State F} (ht : Twin h s s') {r : Ref} (hr : Old h s r) :
    nonMyopicStake s'.rs s'.totalStake s'.heap s'.rank r = nonMyopicStake s.rs s.totalStake s.heap s.rank r := by
  have := nonMyopicStake_twin ht (l := s.rank) (l' := s'.rank) (hr.known ht) ?_ ?_ (fun q hq => (ht.rank q hq).known ht)
  · rwa [Shift.ref_old hr.1] at this
  · rw [Shift.ref_old hr.1, ht.ranks]
    have : poolKey (s'.heap r) = poolKey (s.heap r) := by
      unfold poolKey; rw [(ht.old hr).des, (ht.old hr).pp, ht.old_id hr]
    rw [this]
  · rw [ht.ranks]
    symm
    conv_rhs => rw [← List.map_id s.rank.vals]
    apply List.map_congr_left
    intro x hx
    cases x with
    | none => rfl
    | some q => rw [Option.map_some, Shift.ref_old (ht.rank q hx).1]; rfl

theorem mem_vals_add {k : Key F} {v x : Option Ref} {l : SKL (Key F) (Option Ref)} (hx : x ∈ (SKL.add k v l).vals) : x = v ∨ x ∈ l.vals := by
  obtain ⟨e, he, rfl⟩ := List.mem_map.1 hx
  rcases List.mem_cons.1 ((SKL.add_perm k v l).mem_iff.1 he) with rfl | he
  · exact Or.inl rfl
  · exact Or.inr (List.mem_map.2 ⟨e, he, rfl⟩)

/-- one step of the construction of the temporary ranking -/
theorem foldl_twin {h : Shift} {s s' : State F} (ht : Twin h s s') (refs : List Ref) (hr : ∀ r ∈ refs, Known h s r) :
    ∀ (l : SKL (Key F) (Option Ref)), (∀ q, some q ∈ l.vals → Known h s q) →
      (refs.map h.ref).foldl (fun l r => SKL.add (poolKey (s'.heap r)) (some r) l) (l.map h.entry) =
        (refs.foldl (fun l r => SKL.add (poolKey (s.heap r)) (some r) l) l).map h.entry ∧
      ∀ q, some q ∈ (refs.foldl (fun l r => SKL.add (poolKey (s.heap r)) (some r) l) l).vals → Known h s q := by
  induction refs with
  | nil => intro l hl; exact ⟨rfl, hl⟩
  | cons r t ih =>
    intro l hl
    simp only [List.map_cons, List.foldl_cons]
    have hk := hr r List.mem_cons_self
    have h1 : SKL.add (poolKey (s'.heap (h.ref r))) (some (h.ref r)) (l.map h.entry) = (SKL.add (poolKey (s.heap r)) (some r) l).map h.entry := by
      rw [(ht.obj r hk.1 hk.2).key, ← h.add_entry]; rfl
    rw [h1]
    refine ih (fun q hq => hr q (List.mem_cons_of_mem _ hq)) _ ?_
    intro q hq
    rcases mem_vals_add hq with hq | hq
    · cases hq; exact hk
    · exact hl q hq

/-- the others' pools as a list of references -/
theorem tempRankings_eq (s : State F) (me : Agent F) (owned : List Ref) : tempRankings s me owned =
    owned.foldl (fun l r => SKL.add (poolKey (s.heap r)) (some r) l)
      (((s.rank.vals.filterMap id).filter (fun r => (s.heap r).owner ≠ me.id)).foldl (fun l r => SKL.add (poolKey (s.heap r)) (some r) l) []) := by
  unfold tempRankings
  simp only
  congr 1
  generalize ([] : SKL (Key F) (Option Ref)) = l
  induction s.rank.vals generalizing l with
  | nil => rfl
  | cons e t ih =>
    cases e with
    | none => simpa using ih l
    | some r =>
      by_cases hr : (s.heap r).owner = me.id
      · simpa [hr] using ih l
      · simpa [hr] using ih _

theorem tempRankings_twin {h : Shift} {s s' : State F} (ht : Twin h s s') (me : Agent F) {owned : List Ref} (ho : ∀ r ∈ owned, Known h s r) :
    tempRankings s' me (owned.map h.ref) = (tempRankings s me owned).map h.entry ∧ ∀ q, some q ∈ (tempRankings s me owned).vals → Known h s q := by
  rw [tempRankings_eq, tempRankings_eq]
  obtain ⟨ol, hol⟩ : ∃ ol, ol = (s.rank.vals.filterMap id).filter (fun r => (s.heap r).owner ≠ me.id) := ⟨_, rfl⟩
  have hold : ∀ r ∈ s.rank.vals.filterMap id, Old h s r := by
    intro r hr
    obtain ⟨e, he, hee⟩ := List.mem_filterMap.1 hr
    exact ht.rank r (by rw [← hee]; exact he)
  have h1 : (s'.rank.vals.filterMap id).filter (fun r => (s'.heap r).owner ≠ me.id) = ol := by
    rw [hol, ht.ranks]
    apply List.filter_congr
    intro r hr
    rw [(ht.old (hold r hr)).owner]
  have h2 : ∀ r ∈ ol, Old h s r := by intro r hr; rw [hol] at hr; exact hold r (List.mem_filter.1 hr).1
  have h3 : ol.map h.ref = ol := by
    conv_rhs => rw [← List.map_id ol]
    exact List.map_congr_left (fun r hr => Shift.ref_old (h2 r hr).1)
  rw [h1, ← hol]
  obtain ⟨g1, g2⟩ := foldl_twin ht ol (fun r hr => (h2 r hr).known ht) [] (by intro q hq; cases hq)
  rw [h3] at g1
  obtain ⟨g3, g4⟩ := foldl_twin ht owned ho _ g2
  rw [← g1] at g3
  exact ⟨g3, g4⟩

theorem operatorUtilityFromStrategy_twin {h : Shift} {s s' : State F} (ht : Twin h s s') (me : Agent F) {τ : Strategy F}
    (ho : ∀ r ∈ τ.owned.vals, Known h s r) :
    operatorUtilityFromStrategy s' me (h.strat τ) = operatorUtilityFromStrategy s me τ := by
  unfold operatorUtilityFromStrategy
  have hv : (h.strat τ).owned.vals = τ.owned.vals.map h.ref := h.owned_vals τ.owned
  have key : ∀ r ∈ τ.owned.vals, Match h (s.heap r) (s'.heap (h.ref r)) := fun r hr => ht.obj r (ho r hr).1 (ho r hr).2
  obtain ⟨h1, h2⟩ := tempRankings_twin ht me ho
  cases me.profile
  · simp only [hv]
    apply accM_map
    intro r hr
    rw [nonMyopicStake_twin ht (ho r hr) (l := tempRankings s me τ.owned.vals) ?_ ?_ h2, ht.rs, (key r hr).pledge, (key r hr).margin, (key r hr).cost]
    · rw [h1, (key r hr).key]; exact h.index_entry _ (some r) _
    · rw [h1]; unfold SKL.vals; rw [List.map_map, List.map_map]; rfl
  all_goals
    simp only [hv]
    apply accM_map
    intro r hr
    simp only [ht.rs, (key r hr).stake, (key r hr).pledge, (key r hr).margin, (key r hr).cost]

theorem delegatorUtilityFromPool_twin {h : Shift} {s s' : State F} (ht : Twin h s s') (me : Agent F) (σ : Strategy F) {r : Ref} (hr : Old h s r)
    (x : F) : delegatorUtilityFromPool s' me σ r x = delegatorUtilityFromPool s me σ r x := by
  unfold delegatorUtilityFromPool
  have hm := ht.old hr
  simp only
  rw [nonMyopicStake_rank ht hr, ht.old_id hr, hm.stake, hm.pledge, hm.margin, hm.cost, ht.rs]

theorem expectedUtility_twin {h : Shift} {s s' : State F} (ht : Twin h s s') (me : Agent F) (σ : Strategy F) {τ : Strategy F}
    (ho : ∀ r ∈ τ.owned.vals, Known h s r) : expectedUtility s' me σ (h.strat τ) = expectedUtility s me σ τ := by
  unfold expectedUtility
  have h1 : (h.strat τ).owned.length = τ.owned.length := h.owned_length τ.owned
  rw [h1, operatorUtilityFromStrategy_twin ht me ho, ht.pools]
  refine congrArg _ (funext fun u => ?_)
  apply accM_congr
  intro e he
  obtain ⟨a, -, ha⟩ := List.mem_filterMap.1 he
  cases hp : s.pools.get? a.1 with
  | none => rw [hp] at ha; cases ha
  | some r => rw [hp] at ha; cases ha; exact delegatorUtilityFromPool_twin ht me σ (ht.pool _ _ hp).1 _

theorem currentUtility_twin {h : Shift} {s s' : State F} (ht : Twin h s s') {σ : Strategy F} (ho : ∀ r ∈ σ.owned.vals, Old h s r) :
    currentUtility s' σ = currentUtility s σ := by
  unfold currentUtility
  rw [accM_congr (f := fun r => operatorUtility s.rs (s.heap r).stake (s.heap r).pledge (s.heap r).margin (s.heap r).cost)
    (l := σ.owned.vals) (fun r hr => ?_)]
  · refine congrArg _ (funext fun u => ?_)
    apply accM_congr
    intro e _
    rw [ht.pools]
    cases hp : s.pools.get? e.1 with
    | none => rw [Dict.getE_none hp]; rfl
    | some r =>
      rw [Dict.getE_of hp]
      have hm := ht.old (ht.pool _ _ hp).1
      show delegatorUtility _ _ _ _ _ _ = delegatorUtility _ _ _ _ _ _
      rw [hm.stake, hm.pledge, hm.margin, hm.cost, ht.rs]
  · have hm := ht.old (ho r hr)
    simp only
    rw [hm.stake, hm.pledge, hm.margin, hm.cost, ht.rs]

/-! ### Delegation -/

theorem Match.updateDelegation {h : Shift} {p p' : Pool F} (hm : Match h p p') (x : F) (a : Nat) :
    Match h (p.updateDelegation x a) (p'.updateDelegation x a) := by
  refine ⟨hm.id, hm.cost, hm.pledge, ?_, hm.owner, hm.isPrivate, hm.pp, hm.margin, hm.des, nodup_updateDelegation hm.nodup x a,
    nodup_updateDelegation hm.nodup' x a, ?_⟩
  · unfold Pool.updateDelegation
    simp only [hm.dels, hm.stake]
  · intro b
    unfold Pool.updateDelegation
    simp only
    by_cases hx : x < minUnit
    · rw [if_pos hx, if_pos hx, Dict.get?_erase (Dict.nodup_set hm.nodup' _ _), Dict.get?_erase (Dict.nodup_set hm.nodup _ _),
        Dict.get?_set, Dict.get?_set, hm.dels]
    · rw [if_neg hx, if_neg hx, Dict.get?_set, Dict.get?_set, hm.dels]

/-- overwriting a pool object on both sides -/
theorem Twin.setPool {h : Shift} {s s' : State F} (ht : Twin h s s') {r : Ref} {p p' : Pool F} (hid : p.id = (s.heap r).id)
    (hm : Match h p p') : Twin h (s.setPool r p) (s'.setPool (h.ref r) p') := by
  have hids : ∀ q, ((s.setPool r p).heap q).id = (s.heap q).id := by
    intro q
    unfold State.setPool
    by_cases hq : q = r
    · subst hq; simp [hid]
    · simp [Function.update_of_ne hq]
  have hold : ∀ q, Old h s q → Old h (s.setPool r p) q := fun q hq => ⟨hq.1, by rw [hids]; exact hq.2⟩
  refine ⟨?_, ht.N_le, ht.I_le, ?_, fun pid q hq => ⟨hold q (ht.pool pid q hq).1, by rw [hids]; exact (ht.pool pid q hq).2⟩,
    fun q hq => hold q (ht.rank q hq), fun q hq => hold q (ht.rankM q hq)⟩
  · unfold State.setPool
    have := ht.eq
    simp only at this ⊢
    rw [this]
  · intro q hq hqo
    rw [hids] at hqo
    show Match h (Function.update s.heap r p q) (Function.update s'.heap (h.ref r) p' (h.ref q))
    by_cases hqr : q = r
    · subst hqr; simpa using hm
    · rw [Function.update_of_ne hqr, Function.update_of_ne (fun hh => hqr (h.ref_inj hh))]
      exact ht.obj q hq hqo

theorem mem_vals_removeM {k : KeyM F} {v x : Option Ref} {l l' : SKL (KeyM F) (Option Ref)} (hr : SKL.remove k v l = .ok l') (hx : x ∈ l'.vals) :
    x ∈ l.vals := by
  induction l generalizing l' with
  | nil => cases hr
  | cons e t ih =>
    simp only [SKL.remove] at hr
    split at hr
    · cases hr
    split at hr
    · cases hr; exact List.mem_cons_of_mem _ hx
    · cases hrt : SKL.remove k v t with
      | error _ => rw [hrt] at hr; cases hr
      | ok t' =>
        rw [hrt] at hr; cases hr
        rcases List.mem_cons.1 hx with hx | hx
        · exact List.mem_cons.2 (Or.inl hx)
        · exact List.mem_cons_of_mem _ (ih hrt hx)

theorem mem_vals_addM {k : KeyM F} {v x : Option Ref} {l : SKL (KeyM F) (Option Ref)} (hx : x ∈ (SKL.add k v l).vals) : x = v ∨ x ∈ l.vals := by
  obtain ⟨e, he, rfl⟩ := List.mem_map.1 hx
  rcases List.mem_cons.1 ((SKL.add_perm k v l).mem_iff.1 he) with rfl | he
  · exact Or.inl rfl
  · exact Or.inr (List.mem_map.2 ⟨e, he, rfl⟩)

theorem keyM_twin {h : Shift} {p p' : Pool F} (rs : RS F) (hm : Match h p p') (hid : p.id ≤ h.I) : poolKeyM rs p' = poolKeyM rs p := by
  unfold poolKeyM myopicDes
  rw [hm.stake, hm.pledge, hm.margin, hm.cost, hm.id, Shift.pid_old hid]

theorem setDelegation_twin {h : Shift} {s s' : State F} (ht : Twin h s s') (pid : Nat) (x : F) (a : Nat) :
    Rel (Twin h) (setDelegation s pid x a) (setDelegation s' pid x a) := by
  unfold setDelegation
  rw [ht.pools]
  cases hp : s.pools.get? pid with
  | none => rw [Dict.getE_none hp]; exact rfl
  | some r =>
    rw [Dict.getE_of hp]
    have hold := (ht.pool _ _ hp).1
    have hm := ht.old hold
    simp only [bind, Except.bind]
    rw [ht.ranksM, ht.rs, keyM_twin s.rs hm hold.2]
    cases hr : SKL.remove (poolKeyM s.rs (s.heap r)) (some r) s.rankM with
    | error e => exact rfl
    | ok l =>
      have hu := hm.updateDelegation x a
      have hk := keyM_twin s.rs hu hold.2
      simp only [pure, Except.pure]
      rw [hk]
      have hst := ht.setPool (r := r) (p := (s.heap r).updateDelegation x a) (p' := (s'.heap r).updateDelegation x a) rfl hu
      rw [Shift.ref_old hold.1] at hst
      refine ⟨?_, hst.N_le, hst.I_le, hst.obj, hst.pool, hst.rank, ?_⟩
      · have := hst.eq
        simp only at this ⊢
        rw [this]
      · intro q hq
        rcases mem_vals_addM hq with hq | hq
        · cases hq; exact ⟨hold.1, by have := (hst.pool pid r hp).1.2; exact this⟩
        · exact hst.rankM q (mem_vals_removeM hr hq)

theorem setDelegation_id {s s' : State F} {pid : Nat} {x : F} {a : Nat} (he : setDelegation s pid x a = .ok s') (r : Ref) :
    (s'.heap r).id = (s.heap r).id := by
  unfold setDelegation at he
  obtain ⟨q, -, he⟩ := bind_ok he
  obtain ⟨l, -, he⟩ := bind_ok he
  cases he
  show (Function.update s.heap q _ r).id = _
  by_cases hq : r = q
  · subst hq; simp [Pool.updateDelegation]
  · rw [Function.update_of_ne hq]

theorem setDelegations_id (a : Nat) (l : List (Nat × F)) : ∀ {s s' : State F}, setDelegations s a l = .ok s' → ∀ r, (s'.heap r).id = (s.heap r).id := by
  induction l with
  | nil => intro s s' he r; cases he; rfl
  | cons e t ih =>
    intro s s' he r
    obtain ⟨s₁, h1, h2⟩ := bind_ok (show (setDelegation s e.1 e.2 a >>= fun s => setDelegations s a t) = .ok s' from he)
    rw [ih h2, setDelegation_id h1]

theorem setDelegations_twin {h : Shift} (a : Nat) (l : List (Nat × F)) : ∀ {s s' : State F}, Twin h s s' →
    Rel (Twin h) (setDelegations s a l) (setDelegations s' a l) := by
  induction l with
  | nil => intro s s' ht; exact ht
  | cons e t ih =>
    intro s s' ht
    exact (setDelegation_twin ht e.1 e.2 a).bind (fun _ _ _ _ h1 => ih h1)

theorem greedy_alike {rs : RS F} {heap heap' : Ref → Pool F} (l : List Ref)
    (hh : ∀ r ∈ l, (heap' r).pledge = (heap r).pledge ∧ (heap' r).stake = (heap r).stake ∧ (heap' r).id = (heap r).id) :
    ∀ (st : F) (b : Option Ref) (al : Dict F), greedy rs heap' l st b al = greedy rs heap l st b al := by
  induction l with
  | nil => intro st b al; rfl
  | cons r t ih =>
    intro st b al
    obtain ⟨h1, h2, h3⟩ := hh r List.mem_cons_self
    simp only [greedy, h1, h2, h3, ih (fun q hq => hh q (List.mem_cons_of_mem _ hq))]

/-- the best saturated pool is one of the list -/
theorem greedy_best {rs : RS F} {heap : Ref → Pool F} (l : List Ref) :
    ∀ (st : F) (b : Option Ref) (al : Dict F) (q : Ref), (greedy rs heap l st b al).2.1 = some q → b = some q ∨ q ∈ l := by
  induction l with
  | nil => intro st b al q hq; exact Or.inl hq
  | cons r t ih =>
    intro st b al q hq
    simp only [greedy] at hq
    split at hq
    · rcases ih _ _ _ _ hq with hb | hb
      · cases b with
        | none => cases hb; exact Or.inr List.mem_cons_self
        | some b => exact Or.inl hb
      · exact Or.inr (List.mem_cons_of_mem _ hb)
    · split at hq
      · exact Or.inl hq
      · rcases ih _ _ _ _ hq with hb | hb
        · exact Or.inl hb
        · exact Or.inr (List.mem_cons_of_mem _ hb)

theorem greedyAllocations_alike {rs : RS F} {heap heap' : Ref → Pool F} (l : List Ref)
    (hh : ∀ r ∈ l, (heap' r).pledge = (heap r).pledge ∧ (heap' r).stake = (heap r).stake ∧ (heap' r).id = (heap r).id) (st : F) :
    greedyAllocations rs heap' l st = greedyAllocations rs heap l st := by
  unfold greedyAllocations
  rw [greedy_alike l hh]
  cases hb : (greedy rs heap l st none []).2.1 with
  | none =>
    generalize greedy rs heap l st none [] = g at hb ⊢
    obtain ⟨x, b, al⟩ := g
    cases hb
    rfl
  | some q =>
    have hq := (hh q ((greedy_best l st none [] q hb).resolve_left (by simp))).2.2
    generalize greedy rs heap l st none [] = g at hb ⊢
    obtain ⟨x, b, al⟩ := g
    cases hb
    simp only [hq]

theorem eligible_twin {h : Shift} {s s' : State F} (ht : Twin h s s') (me : Agent F) : eligiblePools s' me = eligiblePools s me := by
  unfold eligiblePools
  rw [ht.rankingsOf_eq]
  apply List.filterMap_congr
  intro e he
  cases e with
  | none => rfl
  | some r =>
    have hm := ht.old (ht.ranking me he)
    simp only [hm.owner, hm.isPrivate]

theorem eligible_mem {s : State F} {me : Agent F} {r : Ref} (hr : r ∈ eligiblePools s me) : some r ∈ rankingsOf s me := by
  obtain ⟨e, he, hee⟩ := List.mem_filterMap.1 hr
  cases e with
  | none => cases hee
  | some q =>
    simp only at hee
    split at hee
    · cases hee; exact he
    · cases hee

/-- outcome of `findDelegationMove` and its parts: matching states and the same answer -/
def TwinOut {α : Type} (h : Shift) (a b : State F × α) : Prop := Twin h a.1 b.1 ∧ b.2 = a.2

theorem determineStakeAllocations_twin {h : Shift} {s s' : State F} (ht : Twin h s s') (me : Agent F) (σ : Strategy F) (x : F) :
    Rel (TwinOut h) (determineStakeAllocations s me σ x) (determineStakeAllocations s' me σ x) := by
  unfold determineStakeAllocations
  rw [eligible_twin ht]
  simp only
  by_cases hl : (eligiblePools s me).length = 0
  · simp only [hl, if_true]
    exact ⟨ht, rfl⟩
  · simp only [hl, if_false]
    refine (setDelegations_twin me.id _ ht).bind (fun s₁ s₁' h1 h1' ht1 => ?_)
    refine (setDelegations_twin me.id _ ht1).bind (fun s₂ s₂' h2 h2' ht2 => ?_)
    refine ⟨ht2, ?_⟩
    simp only [ht1.rs]
    congr 1
    have hp : ∀ r ∈ eligiblePools s me, Old h s₁ r := by
      intro r hr
      have := ht.ranking me (eligible_mem hr)
      exact ⟨this.1, by rw [setDelegations_id _ _ h1]; exact this.2⟩
    exact greedyAllocations_alike _ (fun r hr => ⟨(ht1.old (hp r hr)).pledge, (ht1.old (hp r hr)).stake, ht1.old_id (hp r hr)⟩) x

theorem findDelegationMove_twin {h : Shift} {s s' : State F} (ht : Twin h s s') (me : Agent F) (σ : Strategy F) (x : F) :
    Rel (TwinOut h) (findDelegationMove s me σ x) (findDelegationMove s' me σ x) := by
  unfold findDelegationMove
  by_cases hx : x < minUnit
  · simp only [hx, if_true]
    exact ⟨ht, rfl⟩
  · simp only [hx, if_false]
    refine (determineStakeAllocations_twin ht me σ x).bind (fun a b _ _ h1 => ?_)
    obtain ⟨s₁, o⟩ := a
    obtain ⟨s₁', o'⟩ := b
    obtain ⟨h2, h3⟩ := h1
    exact ⟨h2, by simp only at h3 ⊢; rw [h3]⟩

/-! ### Operating pools -/

theorem fixedPools_twin {h : Shift} {s s' : State F} (ht : Twin h s s') (me : Agent F) : fixedPools s' me = fixedPools s me := by
  unfold fixedPools
  rw [ht.rankingsOf_eq]
  apply List.filter_congr
  intro e he
  cases e with
  | none => rfl
  | some r => simp only [(ht.old (ht.ranking me he)).owner]

theorem pyIndex_mem {α : Type} {l : List α} {i : Int} {a : α} (hi : pyIndex l i = .ok a) : a ∈ l := by
  unfold pyIndex at hi
  simp only at hi
  generalize (if i < 0 then i + (l.length : Int) else i) = j at hi
  split at hi
  · cases hi
  · split at hi
    · rename_i b hb
      cases hi
      exact List.mem_of_getElem? hb
    · cases hi

theorem marginNM_twin {h : Shift} {s s' : State F} (ht : Twin h s s') (me : Agent F) (pledge cost pp : F) (t : Nat) :
    marginNM s' me pledge cost pp t = marginNM s me pledge cost pp t := by
  unfold marginNM
  rw [fixedPools_twin ht, ht.rs]
  cases hi : pyIndex (fixedPools s me) ((s.rs.k : Int) - (t : Int)) with
  | error e => rfl
  | ok o =>
    cases o with
    | none => rfl
    | some r =>
      have hm := ht.old (ht.ranking me (List.mem_of_mem_filter (pyIndex_mem hi)))
      simp only [bind, Except.bind, hm.des, hm.pp]

theorem myopicDes_twin {h : Shift} {p p' : Pool F} (rs : RS F) (hm : Match h p p') : myopicDes rs p' = myopicDes rs p := by
  unfold myopicDes
  rw [hm.stake, hm.pledge, hm.margin, hm.cost]

theorem marginM_twin {h : Shift} {s s' : State F} (ht : Twin h s s') (me : Agent F) (pledge cost pp : F) (t : Nat) :
    marginM s' me pledge cost pp t = marginM s me pledge cost pp t := by
  unfold marginM
  rw [fixedPools_twin ht, ht.rs]
  cases hi : pyIndex (fixedPools s me) ((s.rs.k : Int) - (t : Int)) with
  | error e => rfl
  | ok o =>
    cases o with
    | none => rfl
    | some r =>
      have hm := ht.old (ht.ranking me (List.mem_of_mem_filter (pyIndex_mem hi)))
      simp only [bind, Except.bind, myopicDes_twin s.rs hm]

theorem foldl_stake_twin {h : Shift} {s s' : State F} (ht : Twin h s s') (l : List Ref) (hl : ∀ r ∈ l, Old h s r) (x : F) :
    l.foldl (fun acc r => acc + (s'.heap r).stake) x = l.foldl (fun acc r => acc + (s.heap r).stake) x := by
  induction l generalizing x with
  | nil => rfl
  | cons r t ih =>
    simp only [List.foldl_cons, (ht.old (hl r List.mem_cons_self)).stake]
    exact ih (fun q hq => hl q (List.mem_cons_of_mem _ hq)) _

theorem marginsAndUtility_twin {h : Shift} {s s' : State F} (ht : Twin h s s') (me : Agent F) {σ : Strategy F} (ho : ∀ r ∈ σ.owned.vals, Old h s r) :
    marginsAndUtility s' me σ = marginsAndUtility s me σ := by
  funext n
  unfold marginsAndUtility
  rw [ht.rs, ht.extraFrac, foldl_stake_twin ht _ ho]
  have h1 : marginNM s' me = marginNM s me := by funext a b c d; exact marginNM_twin ht me a b c d
  have h2 : marginM s' me = marginM s me := by funext a b c d; exact marginM_twin ht me a b c d
  rw [h1, h2]

theorem calculateMargin_twin {h : Shift} {s s' : State F} (ht : Twin h s s') (me : Agent F) {p p' : Pool F} (hpr : p'.isPrivate = p.isPrivate)
    (hpp : p'.pp = p.pp) : calculateMargin s' me p' = calculateMargin s me p := by
  unfold calculateMargin
  rw [hpr, hpp, ht.rankingsOf_eq, ht.rs]
  split
  · rfl
  · cases hi : pyIndex (rankingsOf s me) ((s.rs.k : Int) - 1) with
    | error e => rfl
    | ok o =>
      cases o with
      | none => rfl
      | some r => simp only [bind, Except.bind, (ht.old (ht.ranking me (pyIndex_mem hi))).pp]

theorem marginAt_twin {h : Shift} {s s' : State F} (ht : Twin h s s') (me : Agent F) (margins : List F) (i : Nat) {p p' : Pool F}
    (hpr : p'.isPrivate = p.isPrivate) (hpp : p'.pp = p.pp) : marginAt s' me margins i p' = marginAt s me margins i p := by
  unfold marginAt
  rw [calculateMargin_twin ht me hpr hpp]

theorem insertionSort_congr {α : Type} {r r' : α → α → Prop} [DecidableRel r] [DecidableRel r'] (l : List α)
    (hr : ∀ a ∈ l, ∀ b ∈ l, r' a b ↔ r a b) : l.insertionSort r' = l.insertionSort r := by
  induction l with
  | nil => rfl
  | cons x t ih =>
    have h1 := ih (fun a ha b hb => hr a (List.mem_cons_of_mem _ ha) b (List.mem_cons_of_mem _ hb))
    simp only [List.insertionSort_cons, h1]
    have h2 : ∀ (l : List α), (∀ b ∈ l, b ∈ t) → l.orderedInsert r' x = l.orderedInsert r x := by
      intro l
      induction l with
      | nil => intro _; rfl
      | cons y u ihu =>
        intro hu
        have h3 := hr x List.mem_cons_self y (List.mem_cons_of_mem _ (hu y List.mem_cons_self))
        simp only [List.orderedInsert, h3, ihu (fun b hb => hu b (List.mem_cons_of_mem _ hb))]
    exact h2 _ (fun b hb => (List.perm_insertionSort r t).mem_iff.1 hb)

theorem topPoolIds_twin {h : Shift} {s s' : State F} (ht : Twin h s s') {owned : Dict Ref} (ho : ∀ e ∈ owned, Old h s e.2) (n : Nat) :
    topPoolIds s'.heap owned n = topPoolIds s.heap owned n := by
  unfold topPoolIds
  have hk : ∀ e ∈ owned, keepKey s'.heap e = keepKey s.heap e := by
    intro e he
    have hm := ht.old (ho e he)
    unfold keepKey
    simp only [hm.des, hm.pp, hm.stake]
  rw [insertionSort_congr owned (fun a ha b hb => by rw [hk a ha, hk b hb])]

/-- creating a pool object on both sides -/
theorem Twin.alloc {h : Shift} {s s' : State F} (ht : Twin h s s') {p p' : Pool F} (hm : Match h p p') : Twin h (s.alloc p) (s'.alloc p') := by
  have hne : ∀ q, q < h.N → Function.update s.heap s.next p q = s.heap q := fun q hq =>
    Function.update_of_ne (ne_of_lt (lt_of_lt_of_le hq ht.N_le)) _ _
  have hold : ∀ q, Old h s q → Old h (s.alloc p) q := fun q hq => ⟨hq.1, by show (Function.update s.heap s.next p q).id ≤ _; rw [hne q hq.1]; exact hq.2⟩
  refine ⟨?_, le_trans ht.N_le (Nat.le_succ _), ht.I_le, ?_, ?_, fun q hq => hold q (ht.rank q hq), fun q hq => hold q (ht.rankM q hq)⟩
  · have h1 := ht.eq
    have h2 := ht.next
    unfold State.alloc
    simp only at h1 ⊢
    rw [h1]
    simp only [State.mk.injEq, true_and, and_true]
    omega
  · intro q hq hqo
    show Match h (Function.update s.heap s.next p q) (Function.update s'.heap s'.next p' (h.ref q))
    by_cases hqn : q = s.next
    · subst hqn
      rw [Shift.ref_new ht.N_le, ht.next, Function.update_self, Function.update_self]; exact hm
    · have hq' : q < s.next := by
        have : q < s.next + 1 := hq
        omega
      have h3 : h.ref q ≠ s'.next := by
        rw [ht.next]; unfold Shift.ref; split <;> omega
      rw [Function.update_of_ne hqn, Function.update_of_ne h3]
      refine ht.obj q hq' (fun hh => ?_)
      have := hqo hh
      rwa [show (s.alloc p).heap q = s.heap q from Function.update_of_ne hqn _ _] at this
  · intro pid r hr
    obtain ⟨h1, h2⟩ := ht.pool pid r hr
    exact ⟨hold r h1, by show (Function.update s.heap s.next p r).id = _; rw [hne r h1.1]; exact h2⟩

/-- the pool objects of a draft are new -/
def Fresh (h : Shift) (s : State F) (owned : Dict Ref) : Prop := ∀ e ∈ owned, h.N ≤ e.2 ∧ e.2 < s.next

/-- outcome of a draft: matching states, and the drafted pools are new and shifted -/
def TwinDraft (h : Shift) (a b : State F × Dict Ref) : Prop := Twin h a.1 b.1 ∧ b.2 = h.owned a.2 ∧ Fresh h a.1 a.2

theorem copyPools_twin {h : Shift} (l : List (Nat × Ref)) : ∀ {s s' : State F}, Twin h s s' → (∀ e ∈ l, e.1 ≤ h.I ∧ Old h s e.2) →
    TwinDraft h (copyPools s l) (copyPools s' l) ∧ s.next ≤ (copyPools s l).1.next := by
  induction l with
  | nil => intro s s' ht _; exact ⟨⟨ht, rfl, by intro e he; cases he⟩, le_rfl⟩
  | cons e t ih =>
    intro s s' ht hl
    obtain ⟨pid, r⟩ := e
    obtain ⟨hp, hr⟩ := hl _ List.mem_cons_self
    have ht1 := ht.alloc (ht.old hr)
    have hl1 : ∀ e ∈ t, e.1 ≤ h.I ∧ Old h (s.alloc (s.heap r)) e.2 := by
      intro e he
      obtain ⟨h1, h2⟩ := hl e (List.mem_cons_of_mem _ he)
      refine ⟨h1, h2.1, ?_⟩
      show (Function.update s.heap s.next _ e.2).id ≤ _
      rw [Function.update_of_ne (ne_of_lt (lt_of_lt_of_le h2.1 ht.N_le))]
      exact h2.2
    obtain ⟨⟨g1, g2, g3⟩, g4⟩ := ih ht1 hl1
    have g5 : s.next + 1 ≤ (copyPools (s.alloc (s.heap r)) t).1.next := g4
    refine ⟨⟨g1, ?_, ?_⟩, ?_⟩
    · show (pid, s'.next) :: (copyPools (s'.alloc (s'.heap r)) t).2 = h.owned ((pid, s.next) :: (copyPools (s.alloc (s.heap r)) t).2)
      rw [g2, ht.next]
      simp only [Shift.owned, List.map_cons, Shift.pid_old hp, Shift.ref_new ht.N_le]
    · intro e he
      rcases List.mem_cons.1 (show e ∈ (pid, s.next) :: (copyPools (s.alloc (s.heap r)) t).2 from he) with rfl | he
      · exact ⟨ht.N_le, g5⟩
      · exact g3 e he
    · exact le_trans (Nat.le_succ _) g5

theorem determinePoolsToKeep_twin {h : Shift} {s s' : State F} (ht : Twin h s s') (ord : List Nat → List Nat) {σ : Strategy F}
    (ho : ∀ e ∈ σ.owned, e.1 ≤ h.I ∧ Old h s e.2) (n : Nat) :
    Rel (TwinDraft h) (determinePoolsToKeep ord s σ n) (determinePoolsToKeep ord s' σ n) := by
  unfold determinePoolsToKeep
  rw [topPoolIds_twin ht (fun e he => (ho e he).2)]
  split
  · refine (Rel.of_eq rfl).bind (fun a b ha _ hab => ?_)
    subst hab
    refine (copyPools_twin a ht ?_).1
    intro e he
    have : ∀ (ids : List Nat) (a : List (Nat × Ref)), ids.mapM (fun pid => (do let r ← σ.owned.getE pid; return (pid, r) : Py (Nat × Ref))) = .ok a →
        ∀ e ∈ a, e ∈ σ.owned := by
      intro ids
      induction ids with
      | nil => intro a ha e he; rw [List.mapM_nil] at ha; cases ha; cases he
      | cons i t ih =>
        intro a ha e he
        rw [List.mapM_cons] at ha
        obtain ⟨x, hx, ha⟩ := bind_ok ha
        obtain ⟨y, hy, ha⟩ := bind_ok ha
        cases ha
        obtain ⟨r, hr, hx⟩ := bind_ok hx
        cases hx
        rcases List.mem_cons.1 he with rfl | he
        · exact Dict.mem_of_get? (Dict.getE_ok.1 hr)
        · exact ih y hy e he
    exact ho e (this _ _ ha e he)
  · exact (copyPools_twin σ.owned ht ho).1

theorem Match.reworkPool {h : Shift} {p p' : Pool F} (hm : Match h p p') (rs : RS F) (pledge cost : F) :
    Match h (reworkPool rs pledge cost p) (reworkPool rs pledge cost p') := by
  refine ⟨hm.id, rfl, rfl, ?_, hm.owner, rfl, rfl, hm.margin, hm.des, hm.nodup, hm.nodup', hm.dels⟩
  simp only [RSE.reworkPool, Pool.setProfit, hm.stake, hm.pledge]

theorem Match.setMargin {h : Shift} {p p' : Pool F} (hm : Match h p p') (m : F) : Match h (p.setMargin m) (p'.setMargin m) := by
  refine ⟨hm.id, hm.cost, hm.pledge, hm.stake, hm.owner, hm.isPrivate, hm.pp, rfl, ?_, hm.nodup, hm.nodup', hm.dels⟩
  simp only [Pool.setMargin, Pool.setDesirability, hm.pp]

theorem reworkPools_twin {h : Shift} (me : Agent F) (pledge cost : F) (margins : List F) (l : List (Nat × Ref)) :
    ∀ {s s' : State F} (i : Nat), Twin h s s' → Fresh h s l →
      Rel (fun a b => Twin h a b ∧ a.next = s.next) (reworkPools me pledge cost margins s i l) (reworkPools me pledge cost margins s' i (h.owned l)) := by
  induction l with
  | nil => intro s s' i ht _; exact ⟨ht, rfl⟩
  | cons e t ih =>
    intro s s' i ht hf
    obtain ⟨pid, r⟩ := e
    obtain ⟨h1, h2⟩ := hf _ List.mem_cons_self
    have hm := ht.obj r h2 (fun hh => absurd hh (by have : h.N ≤ r := h1; omega))
    show Rel _ (reworkPools me pledge cost margins s i ((pid, r) :: t)) (reworkPools me pledge cost margins s' i ((h.pid pid, h.ref r) :: h.owned t))
    unfold reworkPools
    simp only
    rw [ht.rs]
    have hw := hm.reworkPool s.rs pledge cost
    rw [marginAt_twin ht me margins i hw.isPrivate hw.pp]
    refine (Rel.of_eq rfl).bind (fun a b _ _ hab => ?_)
    subst hab
    exact ih (i + 1) (ht.setPool (r := r) rfl (hw.setMargin a)) (fun e he => hf e (List.mem_cons_of_mem _ he))

theorem Twin.bump {h : Shift} {s s' : State F} (ht : Twin h s s') :
    Twin h { s with idSeq := s.idSeq + 1 } { s' with idSeq := s'.idSeq + 1 } := by
  refine ⟨?_, ht.N_le, le_trans ht.I_le (Nat.le_succ _), ht.obj, ht.pool, ht.rank, ht.rankM⟩
  have h1 := ht.eq
  have h2 := ht.idSeq
  simp only at h1 ⊢
  rw [h1]
  simp only [State.mk.injEq, true_and, and_true]
  omega

theorem mem_dict_set {d : Dict Ref} {k : Nat} {r : Ref} {e : Nat × Ref} (he : e ∈ d.set k r) : e.2 = r ∨ e ∈ d := by
  induction d with
  | nil => rcases List.mem_cons.1 he with rfl | he
           · exact Or.inl rfl
           · cases he
  | cons x t ih =>
    simp only [Dict.set] at he
    split at he
    · rcases List.mem_cons.1 he with rfl | he
      · exact Or.inl rfl
      · exact Or.inr (List.mem_cons_of_mem _ he)
    · rcases List.mem_cons.1 he with rfl | he
      · exact Or.inr List.mem_cons_self
      · rcases ih he with h1 | h1
        · exact Or.inl h1
        · exact Or.inr (List.mem_cons_of_mem _ h1)

theorem draftPools_twin {h : Shift} (me : Agent F) (pledge cost : F) (margins : List F) (cnt : Nat) :
    ∀ {s s' : State F} (i : Nat) (owned : Dict Ref), Twin h s s' → Fresh h s owned →
      Rel (TwinDraft h) (draftPools me pledge cost margins cnt s i owned) (draftPools me pledge cost margins cnt s' i (h.owned owned)) := by
  induction cnt with
  | zero => intro s s' i owned ht hf; exact ⟨ht, rfl, hf⟩
  | succ cnt ih =>
    intro s s' i owned ht hf
    unfold draftPools
    simp only
    have htb := ht.bump
    have hpid : h.pid (s.idSeq + 1) = s'.idSeq + 1 := by
      rw [Shift.pid_new (by have := ht.I_le; omega), ht.idSeq]; omega
    have hm : Match h (Pool.create (s.idSeq + 1) cost pledge me.id s.rs (decide (pledge ≥ s.rs.sat pledge)))
        (Pool.create (s'.idSeq + 1) cost pledge me.id s'.rs (decide (pledge ≥ s'.rs.sat pledge))) := by
      rw [ht.rs]
      exact ⟨hpid.symm, rfl, rfl, rfl, rfl, rfl, rfl, rfl, rfl, List.nodup_nil, List.nodup_nil, fun _ => rfl⟩
    rw [marginAt_twin htb me margins i hm.isPrivate hm.pp]
    refine (Rel.of_eq rfl).bind (fun a b _ _ hab => ?_)
    subst hab
    have ho : (h.owned owned).set (s'.idSeq + 1) s'.next = h.owned (owned.set (s.idSeq + 1) s.next) := by
      rw [← h.owned_set, hpid, Shift.ref_new ht.N_le, ht.next]
    rw [ho]
    refine ih (i + 1) _ (htb.alloc (hm.setMargin a)) ?_
    intro e he
    show h.N ≤ e.2 ∧ e.2 < s.next + 1
    rcases mem_dict_set he with h1 | h1
    · rw [h1]; exact ⟨ht.N_le, Nat.lt_succ_self _⟩
    · exact ⟨(hf e h1).1, lt_trans (hf e h1).2 (Nat.lt_succ_self _)⟩

/-- outcome of planning: matching states, the same utility, and the same strategy up to the shift -/
def TwinMove (h : Shift) (a b : State F × Strategy F) : Prop := Twin h a.1 b.1 ∧ b.2 = h.strat a.2 ∧ Fresh h a.1 a.2.owned

theorem setDelegations_next (a : Nat) (l : List (Nat × F)) : ∀ {s s' : State F}, setDelegations s a l = .ok s' → s'.next = s.next ∧ s'.pools = s.pools := by
  induction l with
  | nil => intro s s' he; cases he; exact ⟨rfl, rfl⟩
  | cons e t ih =>
    intro s s' he
    obtain ⟨s₁, h1, h2⟩ := bind_ok (show (setDelegation s e.1 e.2 a >>= fun s => setDelegations s a t) = .ok s' from he)
    rw [(ih h2).1, (ih h2).2]
    unfold setDelegation at h1
    obtain ⟨q, -, h1⟩ := bind_ok h1
    obtain ⟨l, -, h1⟩ := bind_ok h1
    cases h1; exact ⟨rfl, rfl⟩

theorem findDelegationMove_next {s s₁ : State F} {me : Agent F} {σ δ : Strategy F} {x : F} (he : findDelegationMove s me σ x = .ok (s₁, δ)) :
    s₁.next = s.next ∧ δ.owned = [] ∧ s₁.pools = s.pools := by
  unfold findDelegationMove at he
  by_cases hx : x < minUnit
  · simp only [hx, if_true] at he; cases he; exact ⟨rfl, rfl, rfl⟩
  · simp only [hx, if_false] at he
    obtain ⟨⟨s₂, o⟩, h1, h2⟩ := bind_ok he
    cases h2
    suffices hs : s₂.next = s.next ∧ s₂.pools = s.pools from ⟨hs.1, rfl, hs.2⟩
    unfold determineStakeAllocations at h1
    simp only at h1
    by_cases hl : (eligiblePools s me).length = 0
    · simp only [hl, if_true] at h1; cases h1; exact ⟨rfl, rfl⟩
    · simp only [hl, if_false] at h1
      obtain ⟨s₃, h3, h1⟩ := bind_ok h1
      obtain ⟨s₄, h4, h1⟩ := bind_ok h1
      cases h1
      obtain ⟨h5, h6⟩ := setDelegations_next _ _ h4
      obtain ⟨h7, h8⟩ := setDelegations_next _ _ h3
      exact ⟨h5.trans h7, h6.trans h8⟩

theorem findOperatorMove_twin {h : Shift} {s s' : State F} (ht : Twin h s s') (me : Agent F) (σ : Strategy F) (n : Nat) {owned : Dict Ref}
    (hf : Fresh h s owned) (margins : List F) :
    Rel (TwinMove h) (findOperatorMove s me σ n owned margins) (findOperatorMove s' me σ n (h.owned owned) margins) := by
  unfold findOperatorMove
  rw [ht.rs, ht.extraFrac]
  refine (Rel.of_eq rfl).bind (fun pledge b _ _ hab => ?_)
  subst hab
  refine (Rel.of_eq rfl).bind (fun cost b _ _ hab => ?_)
  subst hab
  refine (reworkPools_twin me pledge cost margins owned 0 ht hf).bind (fun s₁ s₁' _ _ h1 => ?_)
  obtain ⟨ht1, hn1⟩ := h1
  rw [h.owned_length]
  refine (draftPools_twin me pledge cost margins _ owned.length owned ht1 (fun e he => ⟨(hf e he).1, by rw [hn1]; exact (hf e he).2⟩)).bind
    (fun a b _ _ h2 => ?_)
  obtain ⟨s₂, o₂⟩ := a
  obtain ⟨s₂', o₂'⟩ := b
  obtain ⟨ht2, ho2, hf2⟩ := h2
  simp only at ht2 ho2 hf2 ⊢
  split
  · refine (findDelegationMove_twin ht2 me σ _).bind (fun a b ha _ h3 => ?_)
    obtain ⟨s₃, δ⟩ := a
    obtain ⟨s₃', δ'⟩ := b
    obtain ⟨h4, h5⟩ := h3
    simp only at h4 h5
    refine ⟨h4, ?_, ?_⟩
    · simp only [h5, ho2]; rfl
    · intro e he
      show h.N ≤ e.2 ∧ e.2 < s₃.next
      rw [(findDelegationMove_next ha).1]
      exact hf2 e he
  · exact ⟨ht2, by simp only [ho2]; rfl, hf2⟩

theorem Fresh.known {h : Shift} {s : State F} {owned : Dict Ref} (hf : Fresh h s owned) : ∀ r ∈ owned.vals, Known h s r := by
  intro r hr
  obtain ⟨e, he, rfl⟩ := List.mem_map.1 hr
  exact ⟨(hf e he).2, fun hh => absurd hh (by have := (hf e he).1; omega)⟩

theorem choosePoolStrategy_twin {h : Shift} {s s' : State F} (ht : Twin h s s') (ord : List Nat → List Nat) (me : Agent F) {σ : Strategy F}
    (ho : ∀ e ∈ σ.owned, e.1 ≤ h.I ∧ Old h s e.2) :
    Rel (fun a b => Twin h a.1 b.1 ∧ b.2.1 = a.2.1 ∧ b.2.2 = h.strat a.2.2) (choosePoolStrategy ord s me σ) (choosePoolStrategy ord s' me σ) := by
  unfold choosePoolStrategy
  rw [marginsAndUtility_twin ht me (fun r hr => by
    obtain ⟨e, he, rfl⟩ := List.mem_map.1 hr
    exact (ho e he).2), ht.rs]
  refine (Rel.of_eq rfl).bind (fun a b _ _ hab => ?_)
  subst hab
  obtain ⟨n, margins⟩ := a
  refine (determinePoolsToKeep_twin ht ord ho n).bind (fun a b _ _ h1 => ?_)
  obtain ⟨s₁, copies⟩ := a
  obtain ⟨s₁', copies'⟩ := b
  obtain ⟨ht1, hc1, hf1⟩ := h1
  simp only at ht1 hc1 hf1
  subst hc1
  refine (findOperatorMove_twin ht1 me σ n hf1 margins).bind (fun a b _ _ h2 => ?_)
  obtain ⟨s₂, τ⟩ := a
  obtain ⟨s₂', τ'⟩ := b
  obtain ⟨ht2, hτ, hf2⟩ := h2
  simp only at ht2 hτ hf2
  subst hτ
  simp only
  rw [expectedUtility_twin ht2 me σ hf2.known]
  refine (Rel.of_eq rfl).bind (fun u b _ _ hab => ?_)
  subst hab
  exact ⟨ht2, rfl, rfl⟩

/-- planning in matching states: the same decision, and the same new strategy up to the shift -/
theorem planMove_twin {h : Shift} {s s' : State F} (ht : Twin h s s') (ord : List Nat → List Nat) (me : Agent F) {σ : Strategy F}
    (ho : ∀ e ∈ σ.owned, s.pools.get? e.1 = some e.2) :
    Rel (fun a b => Twin h a.1 b.1 ∧ b.2 = a.2.map h.strat) (planMove ord s me σ) (planMove ord s' me σ) := by
  have hold : ∀ {s s' : State F}, Twin h s s' → (∀ e ∈ σ.owned, s.pools.get? e.1 = some e.2) → ∀ e ∈ σ.owned, e.1 ≤ h.I ∧ Old h s e.2 := by
    intro s s' ht ho e he
    obtain ⟨h1, h2⟩ := ht.pool _ _ (ho e he)
    exact ⟨by rw [← h2]; exact h1.2, h1⟩
  have hov : ∀ r ∈ σ.owned.vals, Old h s r := by
    intro r hr
    obtain ⟨e, he, rfl⟩ := List.mem_map.1 hr
    exact (hold ht ho e he).2
  have hσ : h.strat σ = σ := by
    have : h.owned σ.owned = σ.owned := by
      unfold Shift.owned
      conv_rhs => rw [← List.map_id σ.owned]
      apply List.map_congr_left
      intro e he
      obtain ⟨h1, h2⟩ := hold ht ho e he
      rw [Shift.pid_old h1, Shift.ref_old h2.1]; rfl
    unfold Shift.strat; rw [this]
  unfold planMove
  rw [currentUtility_twin ht hov]
  refine (Rel.of_eq rfl).bind (fun cur b _ _ hab => ?_)
  subst hab
  have h1 := expectedUtility_twin ht me σ (τ := σ) (fun r hr => (hov r hr).known ht)
  rw [hσ] at h1
  rw [h1, ht.relThr, ht.absThr]
  refine (Rel.of_eq rfl).bind (fun exp b _ _ hab => ?_)
  subst hab
  refine (findDelegationMove_twin ht me σ me.stake).bind (fun a b ha _ h2 => ?_)
  obtain ⟨s₁, δ⟩ := a
  obtain ⟨s₁', δ'⟩ := b
  obtain ⟨ht1, hδ⟩ := h2
  simp only at ht1 hδ
  subst hδ
  have hδo := (findDelegationMove_next ha).2.1
  have hδs : h.strat δ' = δ' := by
    unfold Shift.strat; rw [hδo]; obtain ⟨al, ow⟩ := δ'; simp only at hδo; subst hδo; rfl
  have h3 := expectedUtility_twin ht1 me σ (τ := δ') (by rw [hδo]; intro r hr; cases hr)
  rw [hδs] at h3
  simp only
  rw [h3]
  refine (Rel.of_eq rfl).bind (fun du b _ _ hab => ?_)
  subst hab
  refine (choosePoolStrategy_twin ht1 ord me (hold ht1 (fun e he => by rw [(findDelegationMove_next ha).2.2]; exact ho e he))).bind (fun a b _ _ h4 => ?_)
  obtain ⟨s₂, ou, ω⟩ := a
  obtain ⟨s₂', ou', ω'⟩ := b
  obtain ⟨ht2, h5, h6⟩ := h4
  simp only at ht2 h5 h6
  subst h5 h6
  refine ⟨ht2, ?_⟩
  simp only
  cases pickMove (augmented s.relThr s.absThr cur exp) du ou'
  · rfl
  · simp only [Option.map_some, hδs]
  · rfl

end RSE
