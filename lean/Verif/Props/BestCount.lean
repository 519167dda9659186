import Verif.Props.Planned
import Verif.Props.NoConvergence

/-!
# C97: when the number of pools that an agent plans is the best one
-/

set_option linter.unusedSectionVars false

namespace RSE.Props

variable {K : Type} [Field K] [LinearOrder K] [IsStrictOrderedRing K]

/-! ### The utility as a function of the number of pools is concave -/

/-- what the delegators of a pool must get in order that it competes with a rival that has rating `x` -/
def rivalOffer (x : K × K) : K := max (x.1 + 1 / 1000000) x.2

/-- what one of `n` pools of an agent earns when it is full -/
def profitOf (rs : RS K) (extra : K) (me : Agent K) (n : Nat) : K :=
  rs.reward (min (me.stake / n) rs.beta) (fullAt rs (min (me.stake / n) rs.beta)) - (me.cost + ((n : K) - 1) * extra * me.cost) / n

theorem reward_full {rs : RS K} (hs : rs.scheme ≠ .cip50) (hb : 0 < rs.beta) {q : K} (hq : q ≤ rs.beta) :
    fullAt rs q = rs.beta ∧ rs.reward q rs.beta = (rs.beta + rs.a0 * q) / (1 + rs.a0) := by
  have hb' := hb.ne'
  constructor
  · rw [← sat_eq]
    unfold RS.sat
    cases h : rs.scheme <;> first | rfl | exact absurd h hs
  · unfold RS.reward
    cases h : rs.scheme with
    | cip50 => exact absurd h hs
    | cardano => simp only [min_eq_left hq, min_self, totalRewards]; field_simp; ring
    | simplified => simp only [min_eq_left hq, min_self, totalRewards]; field_simp
    | flat => simp only [min_eq_left hq, min_self, totalRewards]; ring

/-- one pool that competes: the operator keeps what is left after the delegators got what the rival offers -/
theorem poolPlan_competes {rs : RS K} (hs : rs.scheme ≠ .cip50) (hb : 0 < rs.beta) {extra own : K} {me : Agent K} (hme : me.profile = .nonMyopic) {n : Nat} {x : K × K}
    {m v : K} (hx : 0 ≤ x.1) (h : PoolPlan rs extra me own n x m v) (hc : rivalOffer x ≤ profitOf rs extra me n) :
    v = profitOf rs extra me n - (1 - min (me.stake / n) rs.beta / rs.beta) * rivalOffer x := by
  unfold PoolPlan at h
  simp only [if_pos hme] at h
  have h1 : x.1 + 1 / 1000000 ≤ profitOf rs extra me n := (le_max_left _ _).trans hc
  obtain ⟨hm, hv⟩ := h.2 h1
  have hm' := hm.1 hc
  have hpos : 0 < profitOf rs extra me n := by
    have : (0 : K) < 1 / 1000000 := by norm_num
    linarith
  unfold profitOf at hpos
  rw [hv]
  unfold operatorIncome ownPool
  simp only
  rw [if_neg (by linarith)]
  have hfull := (reward_full hs hb (min_le_right (me.stake / n) rs.beta)).1
  unfold profitOf rivalOffer
  rw [← hm']
  simp only [hfull]
  ring

/-- the sum of the offers of the first `n` rivals -/
def offers (τ : Nat → K) (n : Nat) : K := ((List.range n).map (fun i => τ (i + 1))).sum

theorem offers_succ (τ : Nat → K) (n : Nat) : offers τ (n + 1) = offers τ n + τ (n + 1) := by
  unfold offers
  rw [List.range_succ, List.map_append, List.sum_append]
  simp

/-- the utility of `n` pools that compete -/
def concaveUtility (rs : RS K) (extra : K) (me : Agent K) (τ : Nat → K) (n : Nat) : K :=
  (n : K) * profitOf rs extra me n - (1 - min (me.stake / n) rs.beta / rs.beta) * offers τ n

theorem plan_competes {rs : RS K} (hs : rs.scheme ≠ .cip50) (hb : 0 < rs.beta) {extra own : K} {pools : List (Pool K)} {me : Agent K} (hme : me.profile = .nonMyopic)
    {n : Nat} {ms : List K} {u : K} (h : OperatorPlan rs extra pools me own n ms u) {τ : Nat → K}
    (hτ : ∀ t x, 1 ≤ t → t ≤ n → NextRival rs me.profile pools me.id (rs.k - t) x → τ t = rivalOffer x) (hc : ∀ t, 1 ≤ t → t ≤ n → τ t ≤ profitOf rs extra me n) :
    u = concaveUtility rs extra me τ n := by
  obtain ⟨-, us, hl, rfl, hall⟩ := h
  have hus : us = (List.range n).map (fun i => profitOf rs extra me n - (1 - min (me.stake / n) rs.beta / rs.beta) * τ (i + 1)) := by
    refine List.ext_getElem? (fun i => ?_)
    by_cases hi : i < n
    · obtain ⟨m, v, x, -, h2, h3, h4⟩ := hall (i + 1) (by omega) (by omega)
      have ht := hτ (i + 1) x (by omega) (by omega) h3
      rw [Nat.add_sub_cancel] at h2
      rw [h2, List.getElem?_map, List.getElem?_range hi, Option.map_some, poolPlan_competes hs hb hme h3.fst h4 (by rw [← ht]; exact hc _ (by omega) (by omega)), ht]
    · rw [List.getElem?_eq_none (by omega), List.getElem?_eq_none (by simp; omega)]
  rw [hus]
  unfold concaveUtility offers
  generalize profitOf rs extra me n = p
  generalize 1 - min (me.stake / n) rs.beta / rs.beta = y
  clear hus hall hl hτ hc
  have : ∀ l : List Nat, (l.map (fun i => p - y * τ (i + 1))).sum = (l.length : K) * p - y * (l.map (fun i => τ (i + 1))).sum := by
    intro l
    induction l with
    | nil => simp
    | cons a t ih => simp only [List.map_cons, List.sum_cons, List.length_cons, ih]; push_cast; ring
  rw [this, List.length_range]

theorem mul_profitOf {rs : RS K} (hs : rs.scheme ≠ .cip50) (hb : 0 < rs.beta) {extra : K} {me : Agent K} {n : Nat} (hn : 1 ≤ n) :
    (n : K) * profitOf rs extra me n = ((n : K) * rs.beta + rs.a0 * min me.stake ((n : K) * rs.beta)) / (1 + rs.a0) - (me.cost + ((n : K) - 1) * extra * me.cost) := by
  have hn' : (0 : K) < n := by exact_mod_cast hn
  obtain ⟨h1, h2⟩ := reward_full hs hb (min_le_right (me.stake / n) rs.beta)
  have hmin : (n : K) * min (me.stake / n) rs.beta = min me.stake ((n : K) * rs.beta) := by
    rw [mul_min_of_nonneg _ _ hn'.le, mul_div_cancel₀ _ hn'.ne']
  unfold profitOf
  rw [h1, h2, mul_sub, mul_div_cancel₀ _ hn'.ne', ← hmin]
  congr 1
  rw [← mul_div_assoc]
  congr 1
  ring

theorem one_sub_pledge {rs : RS K} (hb : 0 < rs.beta) (me : Agent K) (n : Nat) :
    1 - min (me.stake / n) rs.beta / rs.beta = max (1 - me.stake / rs.beta / n) 0 := by
  rw [← min_div_div_right hb.le, div_self hb.ne', div_right_comm]
  rcases le_total (me.stake / rs.beta / n) 1 with h | h
  · rw [min_eq_left h, max_eq_left (by linarith)]
  · rw [min_eq_right h, max_eq_right (by linarith), sub_self]

/-- averages of offers that grow grow -/
theorem offers_le {τ : Nat → K} {n : Nat} (hmono : ∀ i j, 1 ≤ i → i ≤ j → j ≤ n + 1 → τ i ≤ τ j) : offers τ n ≤ (n : K) * τ (n + 1) := by
  unfold offers
  have : ∀ l : List Nat, (∀ i ∈ l, i < n) → (l.map (fun i => τ (i + 1))).sum ≤ (l.length : K) * τ (n + 1) := by
    intro l
    induction l with
    | nil => intro _; simp
    | cons a t ih =>
      intro hl
      have h1 := ih (fun i hi => hl i (List.mem_cons_of_mem _ hi))
      have h2 := hmono (a + 1) (n + 1) (by omega) (by have := hl a List.mem_cons_self; omega) le_rfl
      simp only [List.map_cons, List.sum_cons, List.length_cons]
      push_cast
      linarith
  have := this (List.range n) (fun i hi => List.mem_range.1 hi)
  rwa [List.length_range] at this

theorem offers_nonneg {τ : Nat → K} {n : Nat} (h0 : ∀ i, 1 ≤ i → i ≤ n → 0 ≤ τ i) : 0 ≤ offers τ n := by
  refine List.sum_nonneg (fun x hx => ?_)
  obtain ⟨i, hi, rfl⟩ := List.mem_map.1 hx
  have := List.mem_range.1 hi
  exact h0 _ (by omega) (by omega)

/-- the heart of the matter: what the delegators of `n` pools get is a convex function of `n` -/
theorem convex_step {w S d e t : K} (hw : 0 ≤ w) (ht : 1 < t) (hwt : w ≤ t) (hde : d ≤ e) (hS : S ≤ (t - 1) * d) :
    2 * ((1 - w / t) * (S + d)) ≤ (1 - w / (t + 1)) * (S + d + e) + (1 - w / (t - 1)) * S := by
  have h0 : 0 < t := by linarith
  have h1 : 0 < t - 1 := by linarith
  have h2 : 0 < t + 1 := by linarith
  have hA : 0 ≤ 1 - w / (t + 1) := by
    rw [sub_nonneg, div_le_one h2]; linarith
  have hB : (1 - w / (t + 1)) * (S + d + d) ≤ (1 - w / (t + 1)) * (S + d + e) := mul_le_mul_of_nonneg_left (by linarith) hA
  have hC : (1 - w / (t + 1)) * (S + d + d) + (1 - w / (t - 1)) * S - 2 * ((1 - w / t) * (S + d)) = 2 * w * ((t - 1) * d - S) / (t * (t + 1) * (t - 1)) := by
    field_simp
    ring
  have hD : 0 ≤ 2 * w * ((t - 1) * d - S) / (t * (t + 1) * (t - 1)) := by
    have : 0 ≤ (t - 1) * d - S := by linarith
    positivity
  linarith

theorem concave_step {rs : RS K} (hs : rs.scheme ≠ .cip50) (hb : 0 < rs.beta) (ha : 0 ≤ rs.a0) {extra : K} {me : Agent K} (hst : 0 ≤ me.stake) {τ : Nat → K} {n : Nat}
    (h0 : ∀ i, 1 ≤ i → i ≤ n + 3 → 0 ≤ τ i) (hmono : ∀ i j, 1 ≤ i → i ≤ j → j ≤ n + 3 → τ i ≤ τ j) :
    concaveUtility rs extra me τ (n + 3) + concaveUtility rs extra me τ (n + 1) ≤ 2 * concaveUtility rs extra me τ (n + 2) := by
  unfold concaveUtility
  simp only [one_sub_pledge hb, mul_profitOf hs hb (extra := extra) (me := me) (show 1 ≤ n + 1 by omega), mul_profitOf hs hb (extra := extra) (me := me) (show 1 ≤ n + 2 by omega),
    mul_profitOf hs hb (extra := extra) (me := me) (show 1 ≤ n + 3 by omega)]
  have hw : 0 ≤ me.stake / rs.beta := div_nonneg hst hb.le
  -- rewards
  have hR : ((n + 3 : Nat) : K) * rs.beta + rs.a0 * min me.stake (((n + 3 : Nat) : K) * rs.beta) + (((n + 1 : Nat) : K) * rs.beta + rs.a0 * min me.stake (((n + 1 : Nat) : K) * rs.beta)) ≤
      2 * (((n + 2 : Nat) : K) * rs.beta + rs.a0 * min me.stake (((n + 2 : Nat) : K) * rs.beta)) := by
    have hm : min me.stake (((n + 3 : Nat) : K) * rs.beta) + min me.stake (((n + 1 : Nat) : K) * rs.beta) ≤ 2 * min me.stake (((n + 2 : Nat) : K) * rs.beta) := by
      rcases min_choice me.stake (((n + 2 : Nat) : K) * rs.beta) with h | h <;> rw [h]
      · have := min_le_left me.stake (((n + 3 : Nat) : K) * rs.beta)
        have := min_le_left me.stake (((n + 1 : Nat) : K) * rs.beta)
        linarith
      · have := min_le_right me.stake (((n + 3 : Nat) : K) * rs.beta)
        have := min_le_right me.stake (((n + 1 : Nat) : K) * rs.beta)
        push_cast at *
        linarith
    have := mul_le_mul_of_nonneg_left hm ha
    push_cast at *
    linarith
  have hR' := div_le_div_of_nonneg_right hR (show (0 : K) ≤ 1 + rs.a0 by linarith)
  rw [add_div, mul_div_assoc] at hR'
  -- what delegators get
  have hG : 2 * (max (1 - me.stake / rs.beta / ((n + 2 : Nat) : K)) 0 * offers τ (n + 2)) ≤
      max (1 - me.stake / rs.beta / ((n + 3 : Nat) : K)) 0 * offers τ (n + 3) + max (1 - me.stake / rs.beta / ((n + 1 : Nat) : K)) 0 * offers τ (n + 1) := by
    have o1 : 0 ≤ offers τ (n + 1) := offers_nonneg (fun i h1 h2 => h0 i h1 (by omega))
    have o3 : 0 ≤ offers τ (n + 3) := offers_nonneg (fun i h1 h2 => h0 i h1 (by omega))
    generalize me.stake / rs.beta = w at hw ⊢
    rcases le_total (1 - w / ((n + 2 : Nat) : K)) 0 with h | h
    · rw [max_eq_right h, zero_mul, mul_zero]
      positivity
    · rw [max_eq_left h]
      have ht : (0 : K) < ((n + 2 : Nat) : K) := by positivity
      have hwt : w ≤ ((n + 2 : Nat) : K) := by rwa [sub_nonneg, div_le_one ht] at h
      have hS := offers_le (τ := τ) (n := n + 1) (fun i j h1 h2 h3 => hmono i j h1 h2 (by omega))
      have key := convex_step (w := w) (S := offers τ (n + 1)) (d := τ (n + 2)) (e := τ (n + 3)) (t := ((n + 2 : Nat) : K)) hw
        (by have : (0 : K) ≤ n := by positivity
            push_cast; linarith) hwt (hmono _ _ (by omega) (by omega) le_rfl) (by push_cast at hS ⊢; linarith)
      have e1 : ((n + 2 : Nat) : K) + 1 = ((n + 3 : Nat) : K) := by push_cast; ring
      have e2 : ((n + 2 : Nat) : K) - 1 = ((n + 1 : Nat) : K) := by push_cast; ring
      rw [e1, e2] at key
      rw [offers_succ τ (n + 2), offers_succ τ (n + 1)]
      rw [offers_succ τ (n + 2), offers_succ τ (n + 1)] at o3
      refine key.trans (add_le_add (mul_le_mul_of_nonneg_right (le_max_left _ _) o3) (mul_le_mul_of_nonneg_right (le_max_left _ _) o1))
  push_cast at *
  linarith

/-- a local maximum of a concave function is a global one -/
theorem concave_max {f : Nat → K} {N n : Nat} (hn : 1 ≤ n) (hc : ∀ t, t + 3 ≤ N → f (t + 3) + f (t + 1) ≤ 2 * f (t + 2)) (hl : ∀ m, m + 1 = n → 1 ≤ m → f m ≤ f n)
    (hr : n + 1 ≤ N → f (n + 1) ≤ f n) (hN : n ≤ N) : ∀ t, 1 ≤ t → t ≤ N → f t ≤ f n := by
  have up : ∀ d, n + d + 1 ≤ N → f (n + d + 1) ≤ f (n + d) := by
    intro d
    induction d with
    | zero => exact hr
    | succ d ih =>
      intro h
      have h1 := ih (by omega)
      obtain ⟨m, rfl⟩ : ∃ m, n = m + 1 := ⟨n - 1, by omega⟩
      have h2 := hc (m + d) (by omega)
      have e1 : m + 1 + (d + 1) + 1 = m + d + 3 := by omega
      have e2 : m + 1 + (d + 1) = m + d + 2 := by omega
      have e3 : m + 1 + d + 1 = m + d + 2 := by omega
      have e4 : m + 1 + d = m + d + 1 := by omega
      rw [e1, e2]
      rw [e3, e4] at h1
      linarith
  have up' : ∀ d, n + d ≤ N → f (n + d) ≤ f n := by
    intro d
    induction d with
    | zero => intro _; exact le_rfl
    | succ d ih => intro h; exact (up d (by omega)).trans (ih (by omega))
  have down : ∀ d, d + 2 ≤ n → f (n - (d + 1)) ≤ f (n - d) := by
    intro d
    induction d with
    | zero => intro h; exact hl (n - 1) (by omega) (by omega)
    | succ d ih =>
      intro h
      have h1 := ih (by omega)
      have h2 := hc (n - (d + 3)) (by omega)
      have e1 : n - (d + 3) + 3 = n - d := by omega
      have e2 : n - (d + 3) + 2 = n - (d + 1) := by omega
      have e3 : n - (d + 3) + 1 = n - (d + 1 + 1) := by omega
      rw [e1, e2, e3] at h2
      linarith
  have down' : ∀ d, d + 1 ≤ n → f (n - d) ≤ f n := by
    intro d
    induction d with
    | zero => intro _; exact le_rfl
    | succ d ih => intro h; exact (down d (by omega)).trans (ih (by omega))
  intro t h1 h2
  rcases le_total n t with h | h
  · have := up' (t - n) (by omega)
    rwa [show n + (t - n) = t by omega] at this
  · have := down' (n - t) (by omega)
    rwa [show n - (n - t) = t by omega] at this

/-! ### Search -/

/-- for every number of pools up to `N`, all the agent's pools could offer what their rivals offer and be left with a profit; and better ranks mean better offers -/
structure Competitive (rs : RS K) (extra : K) (pools : List (Pool K)) (me : Agent K) (N : Nat) : Prop where
  offer : ∀ {t j : Nat} {x : K × K}, 1 ≤ j → j ≤ t → t ≤ N → NextRival rs me.profile pools me.id (rs.k - j) x → rivalOffer x ≤ profitOf rs extra me t
  ordered : ∀ {i j : Nat} {x y : K × K}, 1 ≤ i → i ≤ j → j ≤ N → NextRival rs me.profile pools me.id (rs.k - i) x →
    NextRival rs me.profile pools me.id (rs.k - j) y → rivalOffer x ≤ rivalOffer y

theorem Competitive.mono {rs : RS K} {extra : K} {pools : List (Pool K)} {me : Agent K} {N M : Nat} (h : Competitive rs extra pools me N) (hM : M ≤ N) :
    Competitive rs extra pools me M where
  offer h1 h2 h3 := h.offer h1 h2 (h3.trans hM)
  ordered h1 h2 h3 := h.ordered h1 h2 (h3.trans hM)

/-- with competitive pools only, a number of pools with no better neighbour is the best one -/
theorem best_of_local {rs : RS K} (hs : rs.scheme ≠ .cip50) (hb : 0 < rs.beta) (ha : 0 ≤ rs.a0) {extra own : K} {pools : List (Pool K)} {me : Agent K}
    (hme : me.profile = .nonMyopic) (hst : 0 ≤ me.stake) {n : Nat} (hn : 1 ≤ n) {ms : List K} {u : K} (hu : OperatorPlan rs extra pools me own n ms u)
    (hl : ∀ n', (n' + 1 = n ∨ n' = n + 1) → 1 ≤ n' → n' ≤ rs.k → (∃ ms' u', OperatorPlan rs extra pools me own n' ms' u') ∧
      ∀ ms' u', OperatorPlan rs extra pools me own n' ms' u' → u' ≤ u) {N : Nat} (hnN : n ≤ N) (hNk : N ≤ rs.k)
    (hN : Competitive rs extra pools me N) {t : Nat} (ht1 : 1 ≤ t) (htN : t ≤ N) {ms' : List K} {u' : K} (hu' : OperatorPlan rs extra pools me own t ms' u') : u' ≤ u := by
  classical
  -- the offers of the rivals of all these pools
  let τ : Nat → K := fun j => if h : ∃ x, NextRival rs me.profile pools me.id (rs.k - j) x then rivalOffer h.choose else 0
  have hτ : ∀ {j : Nat} {x : K × K}, NextRival rs me.profile pools me.id (rs.k - j) x → τ j = rivalOffer x := by
    intro j x hx
    have he : ∃ x, NextRival rs me.profile pools me.id (rs.k - j) x := ⟨x, hx⟩
    have : τ j = rivalOffer he.choose := dif_pos he
    rw [this, he.choose_spec.unique hx]
  have hex : ∀ {m : Nat} {ms : List K} {u : K}, OperatorPlan rs extra pools me own m ms u → ∀ j, 1 ≤ j → j ≤ m →
      ∃ x, NextRival rs me.profile pools me.id (rs.k - j) x := by
    rintro m ms u ⟨-, us, -, -, hall⟩ j h1 h2
    obtain ⟨_, _, x, -, -, hx, -⟩ := hall j h1 h2
    exact ⟨x, hx⟩
  have hM : ∀ j, 1 ≤ j → j ≤ max n t → ∃ x, NextRival rs me.profile pools me.id (rs.k - j) x := by
    intro j h1 h2
    rcases le_max_iff.1 h2 with h | h
    · exact hex hu j h1 h
    · exact hex hu' j h1 h
  have hMN : max n t ≤ N := max_le hnN htN
  have hval : ∀ {m : Nat} {ms : List K} {u : K}, OperatorPlan rs extra pools me own m ms u → m ≤ N → u = concaveUtility rs extra me τ m := by
    intro m ms u hp hm
    refine plan_competes hs hb hme hp (fun j x _ _ hx => hτ hx) (fun j h1 h2 => ?_)
    obtain ⟨x, hx⟩ := hex hp j h1 h2
    rw [hτ hx]
    exact hN.offer h1 h2 hm hx
  rw [hval hu hnN, hval hu' htN]
  refine concave_max (N := max n t) hn (fun i hi => ?_) (fun m hm h1 => ?_) (fun h => ?_) (le_max_left _ _) t ht1 (le_max_right _ _)
  · refine concave_step hs hb ha hst (fun j h1 h2 => ?_) (fun j j' h1 h2 h3 => ?_)
    · obtain ⟨x, hx⟩ := hM j h1 (by omega)
      rw [hτ hx]
      refine le_trans ?_ (le_max_left _ _)
      have := hx.fst
      positivity
    · obtain ⟨x, hx⟩ := hM j h1 (by omega)
      obtain ⟨y, hy⟩ := hM j' (by omega) (by omega)
      rw [hτ hx, hτ hy]
      exact hN.ordered h1 h2 (by omega) hx hy
  · obtain ⟨⟨_, _, hp⟩, hle⟩ := hl m (.inl hm) h1 (by omega)
    rw [← hval hu hnN, ← hval hp (by omega)]
    exact hle _ _ hp
  · obtain ⟨⟨_, _, hp⟩, hle⟩ := hl (n + 1) (.inr rfl) (by omega) (by omega)
    rw [← hval hu hnN, ← hval hp (by omega)]
    exact hle _ _ hp

/-- C97.  When a non-myopic agent plans, the number of pools it considers operating is the best one in a range `1 .. N` that contains it, if all its pools would be competitive for all numbers of
pools in this range (reward schemes 0, 1 and 2).  In particular (`N = k`) it is the best one, if they are for all numbers. -/
theorem C97_best {c : Config K} {s s' : State K} (h : Reachable c s) {a : Nat} {ag : Agent K} {σ : Strategy K}
    (ha : s.agents.get? a = some ag) (hσ : ag.strategy = some σ) (hr : c.simultaneous = false ∨ InRecords s a σ) {ord : List Nat → List Nat} (hord : ∀ l, (ord l).Perm l)
    {oν : Option (Strategy K)} (hp : planMove ord s ag σ = .ok (s', oν))
    (hme : ag.profile = .nonMyopic) (hst : 0 ≤ ag.stake) (hs : s.rs.scheme ≠ .cip50) (hb : 0 < s.rs.beta) (ha0 : 0 ≤ s.rs.a0) :
    ∃ s₁ δ ω ou, findDelegationMove s ag σ ag.stake = .ok (s₁, δ) ∧ choosePoolStrategy ord s₁ ag σ = .ok (s', ou, ω) ∧
      let plan := OperatorPlan s.rs s.extraFrac (openPools s).vals ag (σ.owned.map (fun e => (s.heap e.2).stake)).sum
      ∃ u, plan ω.owned.length (ω.owned.map (fun e => (s'.heap e.2).margin)) u ∧
        ∀ N, ω.owned.length ≤ N → N ≤ s.rs.k → Competitive s.rs s.extraFrac (openPools s).vals ag N →
          ∀ t ms' u', 1 ≤ t → t ≤ N → plan t ms' u' → u' ≤ u := by
  obtain ⟨s₁, δ, ω, ou, h1, h2, h3, -, ⟨u, h5, h6⟩, -⟩ := C93_plan h ha hσ hr hord hp
  exact ⟨s₁, δ, ω, ou, h1, h2, u, h5, fun N g1 g2 g3 t ms' u' g4 g5 g6 => best_of_local hs hb ha0 hme hst h3 h5 h6 g1 g2 g3 g4 g5 g6⟩

/-- as long as nobody else has pools, competitive pools are those with a profit of at least one boost -/
theorem competitive_alone {rs : RS K} {extra : K} {pools : List (Pool K)} {me : Agent K} (hown : ∀ p ∈ pools, p.owner = me.id) {N : Nat}
    (hp : ∀ t, 1 ≤ t → t ≤ N → 1 / 1000000 ≤ profitOf rs extra me t) : Competitive rs extra pools me N := by
  have h0 : ∀ {i : Nat} {x : K × K}, NextRival rs me.profile pools me.id i x → x = (0, 0) := by
    intro i x hx
    by_contra hne
    have h1 := hx.here hne
    have h2 : rivals rs me.profile pools me.id (fun y => ¬ RatedAbove x y) = 0 := by
      refine List.countP_eq_zero.2 (fun p hp => ?_)
      simp [hown p hp]
    omega
  have hro : rivalOffer ((0, 0) : K × K) = 1 / 1000000 := by
    unfold rivalOffer
    simp only [zero_add]
    exact max_eq_left (by norm_num)
  refine ⟨fun {t j x} h1 h2 h3 hx => ?_, fun {i j x y} _ _ _ hx hy => by rw [h0 hx, h0 hy]⟩
  rw [h0 hx, hro]
  exact hp t (by omega) h3

/-- C97, the agent that moves first.  As long as nobody else has pools: if full pools would earn at least `1e-6` whatever their number, the agent plans the best number of pools. -/
theorem C97_alone {c : Config K} {s s' : State K} (h : Reachable c s) {a : Nat} {ag : Agent K} {σ : Strategy K}
    (ha : s.agents.get? a = some ag) (hσ : ag.strategy = some σ) (hr : c.simultaneous = false ∨ InRecords s a σ) {ord : List Nat → List Nat} (hord : ∀ l, (ord l).Perm l)
    {oν : Option (Strategy K)} (hp : planMove ord s ag σ = .ok (s', oν))
    (hme : ag.profile = .nonMyopic) (hst : 0 ≤ ag.stake) (hs : s.rs.scheme ≠ .cip50) (hb : 0 < s.rs.beta) (ha0 : 0 ≤ s.rs.a0)
    (hown : ∀ p ∈ (openPools s).vals, p.owner = ag.id)
    (hprofit : ∀ t : Nat, 1 ≤ t → t ≤ s.rs.k →
      1 / 1000000 ≤ (s.rs.beta + s.rs.a0 * min (ag.stake / t) s.rs.beta) / (1 + s.rs.a0) - (ag.cost + ((t : K) - 1) * s.extraFrac * ag.cost) / t) :
    ∃ s₁ δ ω ou, findDelegationMove s ag σ ag.stake = .ok (s₁, δ) ∧ choosePoolStrategy ord s₁ ag σ = .ok (s', ou, ω) ∧
      let plan := OperatorPlan s.rs s.extraFrac (openPools s).vals ag (σ.owned.map (fun e => (s.heap e.2).stake)).sum
      ∃ u, plan ω.owned.length (ω.owned.map (fun e => (s'.heap e.2).margin)) u ∧ ∀ t ms' u', 1 ≤ t → t ≤ s.rs.k → plan t ms' u' → u' ≤ u := by
  obtain ⟨s₁, δ, ω, ou, h1, h2, u, h3, h4⟩ := C97_best h ha hσ hr hord hp hme hst hs hb ha0
  obtain ⟨_, _, _, _, g1, g2, -, hk, -⟩ := C93_plan h ha hσ hr hord hp
  rw [h1] at g1; cases g1
  rw [h2] at g2; cases g2
  refine ⟨s₁, δ, ω, ou, h1, h2, u, h3, fun t ms' u' => h4 s.rs.k hk le_rfl (competitive_alone hown (fun t h1 h2 => ?_)) t ms' u'⟩
  unfold profitOf
  obtain ⟨e1, e2⟩ := reward_full hs hb (min_le_right (ag.stake / t) s.rs.beta)
  rw [e1, e2]
  exact hprofit t h1 h2

/-! ### The search can miss the best number -/

/-- four agents with stake 1/4 and cost 3/5, `k = 3`; further pools add 5 % of the cost -/
def lossCfg : Config ℚ :=
  { rs := { scheme := .cardano, k := 3, beta := 1/3, a0 := 3/10 }, relThr := 0, absThr := 1/10^9, extraFrac := 1/20, simultaneous := false,
    people := List.replicate 4 (1/4, 3/5, .nonMyopic), totalStake := 1 }

/-- the plan of each of them for one pool, for two and for three, as long as there are no pools -/
theorem loss_plans {me : Agent ℚ} (hs : me.stake = 1/4) (hc : me.cost = 3/5) (hp : me.profile = .nonMyopic) (own : ℚ) :
    let plan := OperatorPlan lossCfg.rs lossCfg.extraFrac [] me own
    plan 1 [0] (-1561/4160) ∧ plan 2 [0, 0] (-35741/83200) ∧ plan 3 [2169961/2170000, 2169961/2170000, 2169961/2170000] (8679883/52000000) := by
  have hr : ∀ i, NextRival lossCfg.rs me.profile [] me.id i ((0 : ℚ), 0) := fun i => ⟨le_rfl, le_rfl, Nat.zero_le _, fun h => absurd rfl h⟩
  have h1 : PoolPlan lossCfg.rs lossCfg.extraFrac me own 1 ((0 : ℚ), 0) 0 (-1561/4160) := by
    simp only [PoolPlan, hs, hc, hp, if_true, MarginFor, operatorIncome, ownPool, fullAt]
    decide +kernel
  have h2 : PoolPlan lossCfg.rs lossCfg.extraFrac me own 2 ((0 : ℚ), 0) 0 (-35741/166400) := by
    simp only [PoolPlan, hs, hc, hp, if_true, MarginFor, operatorIncome, ownPool, fullAt]
    decide +kernel
  have h3 : PoolPlan lossCfg.rs lossCfg.extraFrac me own 3 ((0 : ℚ), 0) (2169961/2170000) (8679883/156000000) := by
    simp only [PoolPlan, hs, hc, hp, if_true, MarginFor, operatorIncome, ownPool, fullAt]
    decide +kernel
  refine ⟨⟨rfl, [-1561/4160], rfl, by norm_num, ?_⟩, ⟨rfl, [-35741/166400, -35741/166400], rfl, by norm_num, ?_⟩,
    ⟨rfl, [8679883/156000000, 8679883/156000000, 8679883/156000000], rfl, by norm_num, ?_⟩⟩
  · intro t g1 g2
    obtain rfl : t = 1 := by omega
    exact ⟨_, _, _, rfl, rfl, hr _, h1⟩
  · intro t g1 g2
    obtain rfl | rfl : t = 1 ∨ t = 2 := by omega
    all_goals exact ⟨_, _, _, rfl, rfl, hr _, h2⟩
  · intro t g1 g2
    obtain rfl | rfl | rfl : t = 1 ∨ t = 2 ∨ t = 3 := by omega
    all_goals exact ⟨_, _, _, rfl, rfl, hr _, h3⟩

/-- C97.  The docstring of `choose_pool_strategy` (stakeholder.py:117-130) says that the utility, as a function of the number of pools, has only one local maximum.  It can have more,
and the search then stops at the wrong one: here an agent that has yet to move considers one pool, with which it would lose; with three pools it would gain. -/
theorem C97_missed : ∃ (s s₁ s' : State ℚ) (ag : Agent ℚ) (σ δ ω : Strategy ℚ) (ou : ℚ), Reachable lossCfg s ∧ s.agents.get? 0 = some ag ∧ ag.strategy = some σ ∧
    findDelegationMove s ag σ ag.stake = .ok (s₁, δ) ∧ choosePoolStrategy id s₁ ag σ = .ok (s', ou, ω) ∧ ω.owned.length = 1 ∧
    let plan := OperatorPlan s.rs s.extraFrac (openPools s).vals ag 0
    (∀ ms u, plan 1 ms u → u < 0) ∧ ∃ ms u, plan 3 ms u ∧ 0 < u := by
  have hpp : poolPlans lossCfg [] 0 = some ([0], [-1561/4160, -35741/83200, 8679883/52000000]) := by decide +kernel
  unfold poolPlans at hpp
  obtain ⟨s, hs, hpp⟩ := Option.bind_eq_some_iff.1 hpp
  obtain ⟨ag, hag, hpp⟩ := Option.bind_eq_some_iff.1 hpp
  obtain ⟨σ, hσ, hpp⟩ := Option.bind_eq_some_iff.1 hpp
  obtain ⟨⟨s₁, δ⟩, hδ, hpp⟩ := Option.bind_eq_some_iff.1 hpp
  obtain ⟨⟨s', ou, ω⟩, hω, hpp⟩ := Option.bind_eq_some_iff.1 hpp
  have hs0 : initState lossCfg = s := Option.some.inj hs
  subst hs0
  have hag0 : ag.stake = 1/4 ∧ ag.cost = 3/5 ∧ ag.profile = .nonMyopic := by
    have h : ((initState lossCfg).agents.get? 0).map (fun ag => decide (ag.stake = 1/4 ∧ ag.cost = 3/5 ∧ ag.profile = .nonMyopic)) = some true := by decide +kernel
    rw [hag] at h
    simpa using h
  obtain ⟨g1, g2, g3⟩ := loss_plans hag0.1 hag0.2.1 hag0.2.2 0
  refine ⟨initState lossCfg, s₁, s', ag, σ, δ, ω, ou, ⟨[], by simp, rfl⟩, hag, hσ, toOption_ok hδ, toOption_ok hω, ?_, fun ms u h => ?_, _, _, g3, by norm_num⟩
  · have := congrArg List.length (Prod.mk.inj (Option.some.inj hpp)).1
    simpa using this
  · rw [(C93_one_plan h g1).2]
    norm_num

/-- the arguments of a simulation of these agents -/
def lossArgs : Args ℚ :=
  { n := .one 4, k := .one 3, a0 := .one (3/10), relThr := .one 0, absThr := .one (1/10^9), maxIter := .one 2000, extraFrac := .one (1/20),
    order := .one .sequential, scheme := 0, weights := none, inactive := 0, known := false, costMin := 3/5, costMax := 7/10, source := .flat,
    metrics := none, conv := 10 }

/-- all costs drawn are the lowest possible one -/
def lossDraws : Draws ℚ := { pareto := fun _ => 0, file := [], choice := fun _ => 0, cost := fun _ => 0, profile := fun _ => 0 }

/-- C97, a whole execution.  Four equal agents with stake 1/4 and costs 3/5: "Equilibrium reached: Yes" is reported after ten rounds, and there are no pools; every agent could
operate three pools with which, by its own rules of planning, it would gain. -/
theorem C97_false_equilibrium : ∃ l, simulate lossArgs lossDraws (fun _ => 0) ⟨fun _ l => l, fun _ l _ => l, fun _ _ _ => id⟩ 2001 = .ok l ∧
    l.exports = [true] ∧ l.steps = 10 ∧ l.world.2.2.pools = [] ∧
    ∀ a ag, l.world.2.2.agents.get? a = some ag → ∃ ms u, OperatorPlan l.world.2.2.rs l.world.2.2.extraFrac (openPools l.world.2.2).vals ag 0 3 ms u ∧ 0 < u := by
  have h : (simulate lossArgs lossDraws (fun _ => 0) ⟨fun _ l => l, fun _ l _ => l, fun _ _ _ => id⟩ 2001).toOption.map (fun l =>
      decide (l.exports = [true] ∧ l.steps = 10 ∧ l.world.2.2.pools.length = 0 ∧ l.world.2.2.rs = lossCfg.rs ∧ l.world.2.2.extraFrac = lossCfg.extraFrac ∧
        ∀ e ∈ l.world.2.2.agents, e.2.stake = 1/4 ∧ e.2.cost = 3/5 ∧ e.2.profile = .nonMyopic)) = some true := by decide +kernel
  obtain ⟨l, hl, hv⟩ := Option.map_eq_some_iff.1 h
  obtain ⟨h1, h2, h3, h4, h5, h6⟩ := of_decide_eq_true hv
  have hp : l.world.2.2.pools = [] := List.length_eq_zero_iff.1 h3
  refine ⟨l, toOption_ok hl, h1, h2, hp, fun a ag ha => ?_⟩
  obtain ⟨g1, g2, g3⟩ := h6 _ (Dict.mem_of_get? ha)
  have hopen : (openPools l.world.2.2).vals = [] := by unfold openPools; rw [hp]; rfl
  rw [h4, h5, hopen]
  exact ⟨_, _, (loss_plans g1 g2 g3 0).2.2, by norm_num⟩

/-! ### The hypotheses are met -/

/-- the first of five agents: its pools would be competitive, and it plans three of them, the best number -/
example : (∀ t : Nat, 1 ≤ t → t ≤ (demo false).rs.k →
      1 / 1000000 ≤ ((demo false).rs.beta + (demo false).rs.a0 * min ((1/5 : ℚ) / t) (demo false).rs.beta) / (1 + (demo false).rs.a0) -
        (1/1000 + ((t : ℚ) - 1) * (demo false).extraFrac * (1/1000)) / t) ∧ (openPools (initState (demo false))).vals = [] ∧
    poolPlans (demo false) [] 0 = some ([10573961 / 10574000, 10573961 / 10574000, 10573961 / 10574000], [29402461 / 97500000, 108707227 / 195000000, 13217461 / 16250000]) := by
  refine ⟨fun t h1 h2 => ?_, rfl, by decide +kernel⟩
  have h2 : t ≤ 3 := h2
  obtain rfl | rfl | rfl : t = 1 ∨ t = 2 ∨ t = 3 := by omega
  all_goals decide +kernel

end RSE.Props
