import Verif.Proofs.Hypervolume

/-!
# The dimension sweep with its caches, for nodes that differ in every coordinate
-/
namespace Verif.Proofs
open Verif.Model

variable {data : ℕ → ℕ → ℝ}

/-- The nodes of `S` up to `x` in coordinate `i`. -/
noncomputable def upTo (data : ℕ → ℕ → ℝ) (i : ℕ) (S : List ℕ) (x : ℕ) : List ℕ :=
  S.filter (fun y => decide (data y i ≤ data x i))

theorem mem_upTo {i : ℕ} {S : List ℕ} {x y : ℕ} : y ∈ upTo data i S x ↔ y ∈ S ∧ data y i ≤ data x i := by
  simp [upTo]

/-- `area` and `volume` of node `x` at level `i` are right for the set `S`. -/
def NodeExact (data : ℕ → ℕ → ℝ) (i : ℕ) (S : List ℕ) (s : HvState ℝ) (x : ℕ) : Prop :=
  s.area x i = vol data i (upTo data i S x) ∧ s.volume x i = volBelow data i (upTo data i S x) (data x i)

/-- The cached values of level `i` below `bounds[i]` are right for the set `S`. -/
def CacheOk (data : ℕ → ℕ → ℝ) (i : ℕ) (S : List ℕ) (s : HvState ℝ) : Prop :=
  ∀ x ∈ S, (data x i : WithBot ℝ) < s.bounds i → NodeExact data i S s x

/-- A marked node is worse than another node of `S` in all coordinates up to its mark. -/
def FlagOk (data : ℕ → ℕ → ℝ) (S : List ℕ) (s : HvState ℝ) : Prop :=
  ∀ q ∈ S, s.ignore q ≠ 0 → ∃ y ∈ S, ∀ k ≤ s.ignore q, data y k < data q k

/-- The caches of the levels 2 to `i` are right. -/
def CachesOk (data : ℕ → ℕ → ℝ) (i : ℕ) (S : List ℕ) (s : HvState ℝ) : Prop :=
  ∀ k, 2 ≤ k → k ≤ i → CacheOk data k S s

/-- What a call may rely on: with a single node the caches are not used. -/
def LowOk (data : ℕ → ℕ → ℝ) (i : ℕ) (S : List ℕ) (s : HvState ℝ) : Prop :=
  (∀ x ∈ S, ∀ y ∈ S, x = y) ∨ CachesOk data i S s

/-- What a call of level `i` on the set `S` gives. -/
structure CallPost (data : ℕ → ℕ → ℝ) (i : ℕ) (S : List ℕ) (s s' : HvState ℝ) : Prop where
  caches : CachesOk data i S s'
  flags : FlagOk data S s'
  ignore : ∀ x, x ∉ S → s'.ignore x = s.ignore x
  area : ∀ x k, i < k → s'.area x k = s.area x k
  volume : ∀ x k, i < k → s'.volume x k = s.volume x k
  bounds : ∀ k, i < k → s'.bounds k ≤ s.bounds k

/-- A call of level `i` is correct. -/
def CallOk (data : ℕ → ℕ → ℝ) (n i : ℕ) (rec : List ℕ → HvState ℝ → ℝ × HvState ℝ) : Prop :=
  ∀ S s, S ≠ [] → (∀ x ∈ S, x < n) → LowOk data i S s → FlagOk data S s →
    (rec S s).1 = vol data (i + 1) S ∧ CallPost data i S s (rec S s).2

theorem CacheOk.transfer {i : ℕ} {S T : List ℕ} {s t : HvState ℝ} (h : CacheOk data i S s)
    (hb : t.bounds i ≤ s.bounds i)
    (hST : ∀ y, (data y i : WithBot ℝ) < t.bounds i → (y ∈ S ↔ y ∈ T))
    (ha : ∀ x ∈ T, t.area x i = s.area x i) (hv : ∀ x ∈ T, t.volume x i = s.volume x i) : CacheOk data i T t := by
  intro x hx hlt
  have hxS := (hST x hlt).mpr hx
  obtain ⟨h1, h2⟩ := h x hxS (hlt.trans_le hb)
  have hm : ∀ y, y ∈ upTo data i S x ↔ y ∈ upTo data i T x := by
    intro y
    rw [mem_upTo, mem_upTo]
    constructor
    · rintro ⟨hy, hle⟩
      exact ⟨(hST y (lt_of_le_of_lt (WithBot.coe_le_coe.mpr hle) hlt)).mp hy, hle⟩
    · rintro ⟨hy, hle⟩
      exact ⟨(hST y (lt_of_le_of_lt (WithBot.coe_le_coe.mpr hle) hlt)).mpr hy, hle⟩
  exact ⟨by rw [ha x hx, h1, vol_congr hm], by rw [hv x hx, h2, volBelow_congr hm]⟩

theorem minBounds_le_left (b : ℕ → WithBot ℝ) (d : ℕ → ℝ) (k : ℕ) : minBounds b d k ≤ b k := min_le_left _ _
theorem minBounds_le_right (b : ℕ → WithBot ℝ) (d : ℕ → ℝ) (k : ℕ) : minBounds b d k ≤ (d k : WithBot ℝ) :=
  min_le_right _ _

/-- General position: among the nodes below `n` no two agree in a coordinate below `m`, and none is zero there. -/
structure General (data : ℕ → ℕ → ℝ) (n m : ℕ) : Prop where
  inj : ∀ k < m, ∀ x < n, ∀ y < n, data x k = data y k → x = y
  neg : ∀ k < m, ∀ x < n, data x k < 0

/-! ### The area of one node -/

structure AreaPost (data : ℕ → ℕ → ℝ) (i q : ℕ) (L : List ℕ) (s s' : HvState ℝ) : Prop where
  exact : s'.area q i = vol data i (q :: L)
  other : ∀ x, x ≠ q → s'.area x i = s.area x i
  volumeHere : ∀ x, s'.volume x i = s.volume x i
  caches : CachesOk data (i - 1) (q :: L) s'
  flags : FlagOk data (q :: L) s'
  ignore : ∀ x, x ∉ q :: L → s'.ignore x = s.ignore x
  area : ∀ x k, i < k → s'.area x k = s.area x k
  volume : ∀ x k, i < k → s'.volume x k = s.volume x k
  bounds : ∀ k, i ≤ k → s'.bounds k ≤ s.bounds k

theorem hvArea_post {n m i q : ℕ} {L : List ℕ} {prev : Option ℕ} {s : HvState ℝ}
    {rec : List ℕ → HvState ℝ → ℝ × HvState ℝ} (G : General data n m) (hi : 2 ≤ i) (him : i < m)
    (hrec : CallOk data n (i - 1) rec)
    (hn : ∀ x ∈ q :: L, x < n) (hq : q ∉ L) (hmax : ∀ x ∈ L, data x i ≤ data q i)
    (hprev : prevArea s i prev = vol data i L) (hprevq : ∀ q', prev = some q' → q' ≠ q)
    (hlow : LowOk data (i - 1) (q :: L) s) (hflag : FlagOk data (q :: L) s) :
    AreaPost data i q L s (hvArea rec i q prev (q :: L) s) := by
  have hii : i - 1 + 1 = i := by omega
  have hqn : q < n := hn q List.mem_cons_self
  rw [hvArea]
  split
  · -- marked
    rename_i hig
    obtain ⟨y, hy, hdom⟩ := hflag q List.mem_cons_self (by omega)
    have hyq : y ≠ q := by
      rintro rfl
      exact lt_irrefl _ (hdom 0 (Nat.zero_le _))
    have hyL : y ∈ L := (List.mem_cons.mp hy).resolve_left hyq
    have hcache : CachesOk data (i - 1) (q :: L) s := by
      rcases hlow with h | h
      · exact absurd (h y hy q List.mem_cons_self) hyq
      · exact h
    constructor
    · simp only [HvState.setArea, and_self, if_true]
      rw [hprev, vol, vol, boxes_cons_of_dominated hyL (fun k hk => (hdom k (by omega)).le)]
    · intro x hx; simp [HvState.setArea, hx]
    · intro x; rfl
    · intro k hk hk'
      refine (hcache k hk hk').transfer (t := s.setArea q i (prevArea s i prev)) le_rfl (fun y _ => Iff.rfl)
        (fun x _ => ?_) (fun x _ => rfl)
      have : k ≠ i := by omega
      simp [HvState.setArea, this]
    · exact hflag
    · intro x _; rfl
    · intro x k hk
      have : k ≠ i := by omega
      simp [HvState.setArea, this]
    · intro x k _; rfl
    · intro k _; exact le_rfl
  · rename_i hig
    obtain ⟨hv, hp⟩ := hrec (q :: L) s (by simp) hn hlow hflag
    rw [hii] at hv
    set r := rec (q :: L) s with hr
    have hprev' : prevArea (r.2.setArea q i r.1) i prev = vol data i L := by
      rw [← hprev]
      cases prev with
      | none => rfl
      | some q' =>
        have := hprevq q' rfl
        simp only [prevArea, HvState.setArea, this, false_and, if_false]
        exact hp.area q' i (by omega)
    have hother : ∀ x, x ≠ q → (r.2.setArea q i r.1).area x i = s.area x i := by
      intro x hx
      simp only [HvState.setArea, hx, false_and, if_false]
      exact hp.area x i (by omega)
    have hareak : ∀ x k, k ≠ i → (r.2.setArea q i r.1).area x k = r.2.area x k := by
      intro x k hk
      simp [HvState.setArea, hk]
    have hcaches : ∀ t : HvState ℝ, t.bounds = r.2.bounds → (∀ x k, k ≠ i → t.area x k = r.2.area x k) →
        t.volume = r.2.volume → CachesOk data (i - 1) (q :: L) t := by
      intro t hb ha hv k hk hk'
      exact (hp.caches k hk hk').transfer (by rw [hb]) (fun y _ => Iff.rfl) (fun x _ => ha x k (by omega))
        (fun x _ => by rw [hv])
    simp only
    split
    · rename_i hle
      rw [hprev', hv] at hle
      obtain ⟨y, hy, hdom⟩ := dominated_of_vol_le (fun k hk => G.neg k (by omega) q hqn) hle
      have hyq : y ≠ q := fun e => hq (e ▸ hy)
      have hyn : y < n := hn y (List.mem_cons_of_mem _ hy)
      constructor
      · simp only [HvState.setIgnore, HvState.setArea, and_self, if_true]; exact hv
      · exact hother
      · intro x; exact hp.volume x i (by omega)
      · exact hcaches _ rfl hareak rfl
      · intro q' hq' hne
        by_cases e : q' = q
        · subst e
          simp only [HvState.setIgnore, if_true]
          refine ⟨y, List.mem_cons_of_mem _ hy, fun k hk => ?_⟩
          rcases Nat.lt_or_ge k i with hk' | hk'
          · exact lt_of_le_of_ne (hdom k hk') (fun e => hyq (G.inj k (by omega) y hyn q' hqn e))
          · obtain rfl : k = i := by omega
            exact lt_of_le_of_ne (hmax y hy) (fun e => hyq (G.inj k him y hyn q' hqn e))
        · simp only [HvState.setIgnore, if_neg e] at hne ⊢
          exact hp.flags q' hq' hne
      · intro x hx
        have : x ≠ q := fun e => hx (e ▸ List.mem_cons_self)
        simp only [HvState.setIgnore, if_neg this]
        exact hp.ignore x hx
      · intro x k hk
        exact (hareak x k (by omega)).trans (hp.area x k (by omega))
      · intro x k hk; exact hp.volume x k (by omega)
      · intro k hk; exact hp.bounds k (by omega)
    · constructor
      · simp only [HvState.setArea, and_self, if_true]; exact hv
      · exact hother
      · intro x; exact hp.volume x i (by omega)
      · exact hcaches _ rfl hareak rfl
      · exact hp.flags
      · exact hp.ignore
      · intro x k hk
        exact (hareak x k (by omega)).trans (hp.area x k (by omega))
      · intro x k hk; exact hp.volume x k (by omega)
      · intro k hk; exact hp.bounds k (by omega)

/-! ### Linking nodes back -/

structure InsertInv (data : ℕ → ℕ → ℝ) (n i q : ℕ) (L : List ℕ) (hvol : ℝ) (s : HvState ℝ) : Prop where
  mem : q ∈ L
  max : ∀ x ∈ L, data x i ≤ data q i
  below : ∀ x ∈ L, x < n
  hvol : hvol = volBelow data i L (data q i)
  exact : ∀ x ∈ L, NodeExact data i L s x
  caches : CachesOk data (i - 1) L s
  flags : FlagOk data L s

structure InsertFrame (i : ℕ) (all : List ℕ) (s s' : HvState ℝ) : Prop where
  ignore : ∀ x, x ∉ all → s'.ignore x = s.ignore x
  area : ∀ x k, i < k → s'.area x k = s.area x k
  volume : ∀ x k, i < k → s'.volume x k = s.volume x k
  bounds : ∀ k, i < k → s'.bounds k ≤ s.bounds k

theorem hvInsert_post {n m i : ℕ} {rec : List ℕ → HvState ℝ → ℝ × HvState ℝ} (G : General data n m) (hi : 2 ≤ i)
    (him : i < m) (hrec : CallOk data n (i - 1) rec) (rest : List ℕ) :
    ∀ (q : ℕ) (L : List ℕ) (hvol : ℝ) (s : HvState ℝ), InsertInv data n i q L hvol s →
    (q :: rest).Pairwise (fun x y => data x i < data y i) → (∀ x ∈ rest, x < n) →
    (∀ p ∈ rest, s.ignore p ≠ 0 → i ≤ s.ignore p ∧ ∃ y ∈ rest ++ L, ∀ k ≤ s.ignore p, data y k < data p k) →
    let r := hvInsert rec data i rest q L hvol s
    ∃ L', (∀ x, x ∈ L' ↔ x ∈ rest ∨ x ∈ L) ∧ InsertInv data n i r.2.1 L' r.1 r.2.2
      ∧ InsertFrame i L' s r.2.2 := by
  induction rest with
  | nil =>
    intro q L hvol s hI _ _ _
    exact ⟨L, by simp, hI, ⟨fun _ _ => rfl, fun _ _ _ => rfl, fun _ _ _ => rfl, fun _ _ => le_rfl⟩⟩
  | cons p rest ih =>
    intro q L hvol s hI hs hn hf
    have hqp : data q i < data p i := (List.pairwise_cons.mp hs).1 p List.mem_cons_self
    have hs' := (List.pairwise_cons.mp hs).2
    have hLp : ∀ x ∈ L, data x i < data p i := fun x hx => lt_of_le_of_lt (hI.max x hx) hqp
    have hpL : p ∉ L := fun h => lt_irrefl _ (hLp p h)
    have hpn : p < n := hn p List.mem_cons_self
    have hup : ∀ y, y ∈ upTo data i L q ↔ y ∈ L := by
      intro y; rw [mem_upTo]; exact ⟨fun h => h.1, fun h => ⟨h, hI.max y h⟩⟩
    have hareaq : s.area q i = vol data i L := by
      rw [(hI.exact q hI.mem).1, vol_congr hup]
    rw [hvInsert]
    simp only
    set hvol' := hvol + s.area q i * (data p i - data q i) with hvol'_def
    have hvol'_eq : hvol' = volBelow data i L (data p i) := by
      rw [volBelow_add hI.max hqp.le (G.neg i him p hpn).le, hvol'_def, hareaq, hI.hvol]
    set s2 := (hvLinkBounds data i p s).setVolume p i hvol' with hs2
    have hbk : ∀ k, k ≠ i → s2.bounds k = min (s.bounds k) (data p k : WithBot ℝ) := by
      intro k hk
      simp [hs2, HvState.setVolume, hvLinkBounds, minBounds, hk]
    have hvk : ∀ x k, k ≠ i → s2.volume x k = s.volume x k := by
      intro x k hk
      simp [hs2, HvState.setVolume, hvLinkBounds, hk]
    have hlow : CachesOk data (i - 1) (p :: L) s2 := by
      intro k hk hk'
      have hki : k ≠ i := by omega
      refine (hI.caches k hk hk').transfer ?_ ?_ (fun _ _ => rfl) (fun x _ => hvk x k hki)
      · rw [hbk k hki]; exact min_le_left _ _
      · intro y hy
        rw [hbk k hki] at hy
        have : y ≠ p := by
          rintro rfl
          exact lt_irrefl _ (hy.trans_le (min_le_right _ _))
        simp [this]
    have hflag : FlagOk data (p :: L) s2 := by
      intro x hx hne
      rcases List.mem_cons.mp hx with rfl | hx
      · obtain ⟨hle, y, hy, hdom⟩ := hf x List.mem_cons_self hne
        refine ⟨y, ?_, hdom⟩
        have hlt := hdom i hle
        rcases List.mem_append.mp hy with hy | hy
        · rcases List.mem_cons.mp hy with rfl | hy
          · exact List.mem_cons_self
          · exact absurd hlt (not_lt.mpr ((List.pairwise_cons.mp hs').1 y hy).le)
        · exact List.mem_cons_of_mem _ hy
      · obtain ⟨y, hy, hdom⟩ := hI.flags x hx hne
        exact ⟨y, List.mem_cons_of_mem _ hy, hdom⟩
    have hnL : ∀ x ∈ p :: L, x < n := by
      intro x hx
      rcases List.mem_cons.mp hx with rfl | hx
      · exact hpn
      · exact hI.below x hx
    have hA := hvArea_post (prev := some q) G hi him hrec hnL hpL (fun x hx => (hLp x hx).le) (s := s2)
      (by rw [← hareaq]; rfl) (by rintro q' h; cases h; rintro rfl; exact hpL hI.mem) (Or.inr hlow) hflag
    set s3 := hvArea rec i p (some q) (p :: L) s2 with hs3
    have hupp : ∀ y, y ∈ upTo data i (p :: L) p ↔ y ∈ p :: L := by
      intro y
      rw [mem_upTo]
      refine ⟨fun h => h.1, fun h => ⟨h, ?_⟩⟩
      rcases List.mem_cons.mp h with rfl | h
      · exact le_rfl
      · exact (hLp y h).le
    have hupx : ∀ x ∈ L, ∀ y, y ∈ upTo data i (p :: L) x ↔ y ∈ upTo data i L x := by
      intro x hx y
      rw [mem_upTo, mem_upTo, List.mem_cons]
      constructor
      · rintro ⟨rfl | hy, hle⟩
        · exact absurd hle (not_le.mpr (hLp x hx))
        · exact ⟨hy, hle⟩
      · rintro ⟨hy, hle⟩
        exact ⟨Or.inr hy, hle⟩
    have hI' : InsertInv data n i p (p :: L) hvol' s3 := by
      refine ⟨List.mem_cons_self, ?_, hnL, ?_, ?_, hA.caches, hA.flags⟩
      · intro x hx
        rcases List.mem_cons.mp hx with rfl | hx
        · exact le_rfl
        · exact (hLp x hx).le
      · rw [volBelow_cons le_rfl, hvol'_eq]
      · intro x hx
        rcases List.mem_cons.mp hx with rfl | hx
        · refine ⟨by rw [hA.exact, vol_congr hupp], ?_⟩
          rw [hA.volumeHere, volBelow_congr hupp, volBelow_cons le_rfl, ← hvol'_eq]
          simp [hs2, HvState.setVolume]
        · have hxp : x ≠ p := fun e => hpL (e ▸ hx)
          obtain ⟨h1, h2⟩ := hI.exact x hx
          refine ⟨?_, ?_⟩
          · rw [hA.other x hxp, vol_congr (hupx x hx), ← h1]; rfl
          · rw [hA.volumeHere, volBelow_congr (hupx x hx), ← h2]
            simp [hs2, HvState.setVolume, hxp, hvLinkBounds]
    have hrestL : ∀ x ∈ rest, x ∉ p :: L := by
      intro x hx h
      have hlt := (List.pairwise_cons.mp hs').1 x hx
      rcases List.mem_cons.mp h with rfl | h
      · exact lt_irrefl _ hlt
      · exact lt_asymm hlt (hLp x h)
    obtain ⟨L', hL', hIL, hF⟩ := ih p (p :: L) hvol' s3 hI' hs' (fun x hx => hn x (List.mem_cons_of_mem _ hx)) (by
      intro x hx hne
      have e : s3.ignore x = s.ignore x := hA.ignore x (hrestL x hx)
      rw [e] at hne ⊢
      obtain ⟨h1, y, hy, hdom⟩ := hf x (List.mem_cons_of_mem _ hx) hne
      refine ⟨h1, y, ?_, hdom⟩
      simp only [List.cons_append, List.mem_cons, List.mem_append] at hy ⊢
      tauto)
    refine ⟨L', ?_, hIL, ⟨?_, ?_, ?_, ?_⟩⟩
    · intro x
      rw [hL' x]
      simp only [List.mem_cons]
      tauto
    · intro x hx
      rw [hF.ignore x hx]
      exact hA.ignore x (fun h => hx ((hL' x).mpr (Or.inr h)))
    · intro x k hk
      rw [hF.area x k hk, hA.area x k hk]; rfl
    · intro x k hk
      rw [hF.volume x k hk, hA.volume x k hk, hvk x k (by omega)]
    · intro k hk
      refine (hF.bounds k hk).trans ((hA.bounds k hk.le).trans ?_)
      rw [hbk k (by omega)]
      exact min_le_left _ _

/-! ### Removing nodes -/

theorem hvRemove_spec (i : ℕ) : ∀ (l removed : List ℕ) (b : ℕ → WithBot ℝ),
    let r := hvRemove data i l removed b
    r.1.reverse ++ r.2.1 = l.reverse ++ removed ∧ (l ≠ [] → r.1 ≠ []) ∧ (∀ k, r.2.2 k ≤ b k) ∧
      (∀ x ∈ r.2.1, x ∈ removed ∨ ∀ k, r.2.2 k ≤ (data x k : WithBot ℝ)) ∧
      (∀ q q' rest, r.1 = q :: q' :: rest → (data q' i : WithBot ℝ) < r.2.2 i) := by
  intro l
  induction l with
  | nil => intro removed b; simp [hvRemove]; tauto
  | cons q l ih =>
    intro removed b
    cases l with
    | nil => simp [hvRemove]; tauto
    | cons q' rest =>
      rw [hvRemove]
      split
      · obtain ⟨h1, h2, h3, h4, h5⟩ := ih (q :: removed) (minBounds b (data q))
        refine ⟨by rw [h1]; simp, fun _ => h2 (by simp), fun k => (h3 k).trans (minBounds_le_left _ _ k), ?_, h5⟩
        intro x hx
        rcases h4 x hx with h | h
        · rcases List.mem_cons.mp h with rfl | h
          · exact Or.inr (fun k => (h3 k).trans (minBounds_le_right _ _ k))
          · exact Or.inl h
        · exact Or.inr h
      · rename_i hc
        push Not at hc
        refine ⟨rfl, fun _ => by simp, fun _ => le_rfl, fun x hx => Or.inl hx, ?_⟩
        intro a a' t e
        cases e
        exact hc.2

/-! ### One level -/

theorem hvLevel_ok {n m i : ℕ} {rec : List ℕ → HvState ℝ → ℝ × HvState ℝ} (G : General data n m) (hi : 2 ≤ i)
    (him : i < m) (hrec : CallOk data n (i - 1) rec) {S nodes : List ℕ} {s : HvState ℝ} (hmem : ∀ x, x ∈ nodes ↔ x ∈ S)
    (hsort : nodes.Pairwise (fun x y => data x i < data y i)) (hne : S ≠ []) (hn : ∀ x ∈ S, x < n)
    (hlow : LowOk data i S s) (hflag : FlagOk data S s) :
    (hvLevel rec data i nodes s).1 = vol data (i + 1) S ∧ CallPost data i S s (hvLevel rec data i nodes s).2 := by
  obtain ⟨h1, h2, h3, h4, h5⟩ := hvRemove_spec (data := data) i nodes.reverse [] (hvReset i nodes s).bounds
  rw [hvLevel]
  simp only
  set s0 := hvReset i nodes s with hs0
  set r := hvRemove data i nodes.reverse [] s0.bounds with hr
  simp only [List.reverse_reverse, List.append_nil] at h1
  have hnodes : nodes ≠ [] := by
    rintro rfl
    obtain ⟨x, hx⟩ := List.exists_mem_of_ne_nil S hne
    exact absurd ((hmem x).mpr hx) (by simp)
  have hkept := h2 (by simpa using hnodes)
  cases hk : r.1 with
  | nil => exact absurd hk hkept
  | cons q below =>
  simp only
  rw [hk] at h1
  have hsplit : nodes = below.reverse ++ q :: r.2.1 := by rw [← h1]; simp
  have hremoved : ∀ x ∈ r.2.1, ∀ k, r.2.2 k ≤ (data x k : WithBot ℝ) := by
    intro x hx
    exact (h4 x hx).resolve_left (by simp)
  rw [hsplit, List.pairwise_append] at hsort
  obtain ⟨hsb, hsq, hbq⟩ := hsort
  have hmemS : ∀ x, x ∈ S ↔ x ∈ below ∨ x = q ∨ x ∈ r.2.1 := by
    intro x; rw [← hmem, hsplit]; simp
  have hbelowq : ∀ x ∈ below, data x i < data q i := fun x hx => hbq x (by simpa using hx) q List.mem_cons_self
  have hqb : q ∉ below := fun h => lt_irrefl _ (hbelowq q h)
  have hnk : ∀ x ∈ q :: below, x < n := by
    intro x hx
    refine hn x ((hmemS x).mpr ?_)
    rcases List.mem_cons.mp hx with rfl | hx
    · exact Or.inr (Or.inl rfl)
    · exact Or.inl hx
  have hrem_gt : ∀ x ∈ r.2.1, ∀ y ∈ q :: below, data y i < data x i := by
    intro x hx y hy
    have hqx := (List.pairwise_cons.mp hsq).1 x hx
    rcases List.mem_cons.mp hy with rfl | hy
    · exact hqx
    · exact (hbelowq y hy).trans hqx
  -- marks after the reset
  have hig0 : ∀ x ∈ S, s0.ignore x ≠ 0 → s0.ignore x = s.ignore x ∧ i ≤ s.ignore x := by
    intro x hx hne0
    simp only [hs0, hvReset, (hmem x).mpr hx, true_and] at hne0 ⊢
    by_cases hlt : s.ignore x < i
    · simp [hlt] at hne0
    · simp only [hlt, if_false]
      exact ⟨trivial, not_lt.mp hlt⟩
  have hdomS : ∀ x ∈ S, s0.ignore x ≠ 0 → i ≤ s0.ignore x ∧ ∃ y ∈ S, ∀ k ≤ s0.ignore x, data y k < data x k := by
    intro x hx hne0
    obtain ⟨e, hle⟩ := hig0 x hx hne0
    rw [e]
    exact ⟨hle, hflag x hx (by omega)⟩
  set s1 : HvState ℝ := { s0 with bounds := r.2.2 } with hs1
  have hflagk : FlagOk data (q :: below) s1 := by
    intro x hx hne0
    have hxS : x ∈ S := (hmemS x).mpr (by
      rcases List.mem_cons.mp hx with h | h
      · exact Or.inr (Or.inl h)
      · exact Or.inl h)
    obtain ⟨hle, y, hy, hdom⟩ := hdomS x hxS hne0
    refine ⟨y, ?_, hdom⟩
    rcases (hmemS y).mp hy with h | h | h
    · exact List.mem_cons_of_mem _ h
    · rw [h]; exact List.mem_cons_self
    · exact absurd (hdom i hle) (not_lt.mpr (hrem_gt y h x hx).le)
  have hSk : ∀ k y, (data y k : WithBot ℝ) < r.2.2 k → (y ∈ S ↔ y ∈ q :: below) := by
    intro k y hy
    rw [hmemS, List.mem_cons]
    constructor
    · rintro (h | h | h)
      · exact Or.inr h
      · exact Or.inl h
      · exact absurd (hremoved y h k) (not_le.mpr hy)
    · rintro (h | h)
      · exact Or.inr (Or.inl h)
      · exact Or.inl h
  -- the state before the area of `q` is computed
  have key : ∀ vb : ℝ × HvState ℝ, vb = hvBelow data i q below.head? s1 →
      vb.1 = volBelow data i (q :: below) (data q i) ∧ vb.2.volume q i = vb.1 ∧
      prevArea vb.2 i below.head? = vol data i below ∧ LowOk data (i - 1) (q :: below) vb.2 ∧
      (∀ x ∈ below, NodeExact data i (q :: below) vb.2 x) ∧ vb.2.ignore = s1.ignore ∧ vb.2.bounds = s1.bounds ∧
      (∀ x k, i < k → vb.2.area x k = s1.area x k) ∧ (∀ x k, i < k → vb.2.volume x k = s1.volume x k) := by
    rintro vb rfl
    cases hb : below with
    | nil =>
      refine ⟨?_, ?_, ?_, ?_, ?_, rfl, rfl, ?_, ?_⟩
      · rw [volBelow_cons le_rfl, volBelow_nil]; rfl
      · simp [hvBelow, HvState.setVolume]
      · rw [vol_nil]; rfl
      · left
        intro x hx y hy
        simp only [List.mem_singleton] at hx hy
        rw [hx, hy]
      · simp
      · intro x k hk
        have h0 : k ≠ 0 := by omega
        have h1 : ¬ k ≤ i := by omega
        simp [hvBelow, HvState.setVolume, h0, h1]
      · intro x k hk
        have h0 : k ≠ i := by omega
        simp [hvBelow, HvState.setVolume, h0]
    | cons q' rest =>
      have hq'lt : (data q' i : WithBot ℝ) < r.2.2 i := h5 q q' rest (by rw [hk, hb])
      have hq'b : q' ∈ below := by rw [hb]; exact List.mem_cons_self
      have hq'q : q' ≠ q := fun e => hqb (e ▸ hq'b)
      have hmaxb : ∀ x ∈ below, data x i ≤ data q' i := by
        intro x hx
        rw [hb] at hsb hx
        rw [List.reverse_cons, List.pairwise_append] at hsb
        rcases List.mem_cons.mp hx with rfl | hx
        · exact le_rfl
        · exact (hsb.2.2 x (by simpa using hx) q' (by simp)).le
      have hcS : CachesOk data i S s := by
        rcases hlow with h | h
        · exact absurd (h q' ((hmemS q').mpr (Or.inl hq'b)) q ((hmemS q).mpr (Or.inr (Or.inl rfl)))) hq'q
        · exact h
      have hcK : ∀ t : HvState ℝ, t.area = s.area → t.bounds = r.2.2 → (∀ x ∈ q :: below, ∀ k, (x ≠ q ∨ k ≠ i) →
          t.volume x k = s.volume x k) → (∀ k, 2 ≤ k → k ≤ i - 1 → CacheOk data k (q :: below) t) ∧
          ∀ x ∈ below, NodeExact data i (q :: below) t x := by
        intro t ha htb hv
        refine ⟨fun k h2 h3' => (hcS k h2 (by omega)).transfer ?_ ?_ (fun x _ => by rw [ha])
          (fun x hx => hv x hx k (Or.inr (by omega))), ?_⟩
        · rw [htb]; exact h3 k
        · intro y hy; exact hSk k y (by rw [← htb]; exact hy)
        · intro x hx
          have hlt : (data x i : WithBot ℝ) < r.2.2 i := lt_of_le_of_lt (WithBot.coe_le_coe.mpr (hmaxb x hx)) hq'lt
          obtain ⟨e1, e2⟩ := hcS i hi le_rfl x ((hmemS x).mpr (Or.inl hx)) (hlt.trans_le (h3 i))
          have hm : ∀ y, y ∈ upTo data i S x ↔ y ∈ upTo data i (q :: below) x := by
            intro y
            rw [mem_upTo, mem_upTo]
            constructor
            · rintro ⟨hy, hle⟩
              exact ⟨(hSk i y (lt_of_le_of_lt (WithBot.coe_le_coe.mpr hle) hlt)).mp hy, hle⟩
            · rintro ⟨hy, hle⟩
              exact ⟨(hSk i y (lt_of_le_of_lt (WithBot.coe_le_coe.mpr hle) hlt)).mpr hy, hle⟩
          have hxq : x ≠ q := fun e => hqb (e ▸ hx)
          exact ⟨by rw [ha, e1, vol_congr hm],
            by rw [hv x (List.mem_cons_of_mem _ hx) i (Or.inl hxq), e2, volBelow_congr hm]⟩
      have hbel : ∀ y, y ∈ upTo data i (q :: below) q' ↔ y ∈ below := by
        intro y
        rw [mem_upTo, List.mem_cons]
        constructor
        · rintro ⟨rfl | h, hle⟩
          · exact absurd hle (not_le.mpr (hbelowq q' hq'b))
          · exact h
        · intro h
          exact ⟨Or.inr h, hmaxb y h⟩
      obtain ⟨hcl, hcx⟩ := hcK s1 rfl rfl (fun _ _ _ _ => rfl)
      obtain ⟨ea, ev⟩ := hcx q' hq'b
      rw [vol_congr hbel] at ea
      rw [volBelow_congr hbel] at ev
      have hvol : s1.volume q' i + s1.area q' i * (data q i - data q' i)
          = volBelow data i (q :: below) (data q i) := by
        rw [volBelow_cons le_rfl, volBelow_add hmaxb (hbelowq q' hq'b).le (G.neg i him q (hnk q List.mem_cons_self)).le,
          ea, ev]
      rw [← hb]
      have hhead : below.head? = some q' := by rw [hb]; rfl
      rw [hhead]
      obtain ⟨hcl', hcx'⟩ := hcK (hvBelow data i q (some q') s1).2 rfl rfl (by
        intro x _ k hxk
        have : ¬ (x = q ∧ k = i) := by tauto
        simp only [hvBelow, HvState.setVolume, this, if_false]
        rfl)
      refine ⟨hvol, ?_, ?_, Or.inr hcl', hcx', rfl, rfl, fun _ _ _ => rfl, ?_⟩
      · simp [hvBelow, HvState.setVolume]
      · exact ea
      · intro x k hk
        have h0 : k ≠ i := by omega
        simp [hvBelow, HvState.setVolume, h0]
  obtain ⟨kv, kvol, kprev, klow, kex, kig, kb, ka, kvo⟩ := key _ rfl
  set vb := hvBelow data i q below.head? s1 with hvb
  have hflagv : FlagOk data (q :: below) vb.2 := by
    intro x hx hne0
    rw [kig] at hne0 ⊢
    exact hflagk x hx hne0
  have hA := hvArea_post (prev := below.head?) G hi him hrec hnk hqb (fun x hx => (hbelowq x hx).le) kprev (by
    intro q' h e
    have : q' ∈ below := List.mem_of_mem_head? h
    exact hqb (e ▸ this)) klow hflagv
  set s3 := hvArea rec i q below.head? (q :: below) vb.2 with hs3
  have hupq : ∀ y, y ∈ upTo data i (q :: below) q ↔ y ∈ q :: below := by
    intro y
    rw [mem_upTo]
    refine ⟨fun h => h.1, fun h => ⟨h, ?_⟩⟩
    rcases List.mem_cons.mp h with rfl | h
    · exact le_rfl
    · exact (hbelowq y h).le
  have hI : InsertInv data n i q (q :: below) vb.1 s3 := by
    refine ⟨List.mem_cons_self, ?_, hnk, kv, ?_, hA.caches, hA.flags⟩
    · intro x hx
      rcases List.mem_cons.mp hx with rfl | hx
      · exact le_rfl
      · exact (hbelowq x hx).le
    · intro x hx
      rcases List.mem_cons.mp hx with rfl | hx
      · refine ⟨by rw [hA.exact, vol_congr hupq], ?_⟩
        rw [hA.volumeHere, kvol, kv, volBelow_congr hupq]
      · have hxq : x ≠ q := fun e => hqb (e ▸ hx)
        obtain ⟨e1, e2⟩ := kex x hx
        exact ⟨by rw [hA.other x hxq, e1], by rw [hA.volumeHere, e2]⟩
  have hremK : ∀ x ∈ r.2.1, x ∉ q :: below := fun x hx h => lt_irrefl _ (hrem_gt x hx x h)
  obtain ⟨L', hL', hIL, hF⟩ := hvInsert_post G hi him hrec r.2.1 q (q :: below) vb.1 s3 hI hsq
    (fun x hx => hn x ((hmemS x).mpr (Or.inr (Or.inr hx)))) (by
      intro x hx hne0
      have e : s3.ignore x = s0.ignore x := by
        rw [hA.ignore x (hremK x hx), kig]
      rw [e] at hne0 ⊢
      obtain ⟨hle, y, hy, hdom⟩ := hdomS x ((hmemS x).mpr (Or.inr (Or.inr hx))) hne0
      refine ⟨hle, y, ?_, hdom⟩
      rcases (hmemS y).mp hy with h | h | h <;> simp [h])
  have hLS : ∀ x, x ∈ L' ↔ x ∈ S := by
    intro x
    rw [hL', hmemS, List.mem_cons]
    tauto
  set fin := hvInsert rec data i r.2.1 q (q :: below) vb.1 s3 with hfin
  have hqL : fin.2.1 < n := hIL.below _ hIL.mem
  have hareaf : fin.2.2.area fin.2.1 i = vol data i L' := by
    rw [(hIL.exact _ hIL.mem).1]
    apply vol_congr
    intro y
    rw [mem_upTo]
    exact ⟨fun h => h.1, fun h => ⟨h, hIL.max y h⟩⟩
  refine ⟨?_, ⟨?_, ?_, ?_, ?_, ?_, ?_⟩⟩
  · rw [← vol_congr hLS, ← volBelow_zero, volBelow_add hIL.max (G.neg i him _ hqL).le le_rfl, hareaf, hIL.hvol]
    ring
  · intro k hk hk'
    rcases Nat.lt_or_ge k i with hlt | hge
    · exact (hIL.caches k hk (by omega)).transfer le_rfl (fun y _ => hLS y) (fun _ _ => rfl) (fun _ _ => rfl)
    · obtain rfl : k = i := by omega
      intro x hx _
      obtain ⟨e1, e2⟩ := hIL.exact x ((hLS x).mpr hx)
      have hm : ∀ y, y ∈ upTo data k L' x ↔ y ∈ upTo data k S x := by
        intro y; rw [mem_upTo, mem_upTo, hLS]
      exact ⟨by rw [e1, vol_congr hm], by rw [e2, volBelow_congr hm]⟩
  · intro x hx hne0
    obtain ⟨y, hy, hdom⟩ := hIL.flags x ((hLS x).mpr hx) hne0
    exact ⟨y, (hLS y).mp hy, hdom⟩
  · intro x hx
    have hxK : x ∉ q :: below := fun h => hx ((hLS x).mp ((hL' x).mpr (Or.inr h)))
    rw [hF.ignore x (fun h => hx ((hLS x).mp h)), hA.ignore x hxK, kig]
    show s0.ignore x = s.ignore x
    have : x ∉ nodes := fun h => hx ((hmem x).mp h)
    simp [hs0, hvReset, this]
  · intro x k hk
    rw [hF.area x k hk, hA.area x k hk, ka x k hk]; rfl
  · intro x k hk
    rw [hF.volume x k hk, hA.volume x k hk, kvo x k hk]; rfl
  · intro k hk
    refine (hF.bounds k hk).trans ((hA.bounds k hk.le).trans ?_)
    rw [kb]
    exact h3 k

/-- The recursive function is correct for nodes in general position. -/
theorem hvRec_spec {n m : ℕ} {order : ℕ → List ℕ} (h : Orders data n order) (G : General data n m)
    (hneg : ∀ x k, data x k ≤ 0) : ∀ i, 1 ≤ i → i < m → CallOk data n i (hvRec data order i) := by
  intro i
  induction i with
  | zero => intro h; omega
  | succ i ih =>
    intro _ him
    cases i with
    | zero =>
      intro S s _ hS _ hf
      rw [hvRec_one h hneg hS]
      exact ⟨rfl, ⟨fun k h1 h2 => by omega, hf, fun _ _ => rfl, fun _ _ _ => rfl, fun _ _ _ => rfl, fun _ _ => le_rfl⟩⟩
    | succ i =>
      intro S s hne hS hlow hf
      rw [hvRec]
      refine hvLevel_ok G (by omega) him (ih (by omega) (by omega)) (mem_linkedOrder h hS (i + 2)) ?_ hne hS hlow hf
      have h1 := linkedOrder_sorted h S (i + 2)
      have h2 := linkedOrder_nodup h S (i + 2)
      have h3 := h1.and h2
      refine List.Pairwise.imp_of_mem ?_ h3
      intro x y hx hy hxy
      have hxn := hS x ((mem_linkedOrder h hS (i + 2) x).mp hx)
      have hyn := hS y ((mem_linkedOrder h hS (i + 2) y).mp hy)
      exact lt_of_le_of_ne hxy.1 (fun e => hxy.2 (G.inj (i + 2) him x hxn y hyn e))

end Verif.Proofs
