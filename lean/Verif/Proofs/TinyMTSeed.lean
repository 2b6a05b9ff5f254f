import Verif.Proofs.TinyMT
import Mathlib.Data.Fintype.BigOperators
import Mathlib.Data.Fintype.Prod
import Mathlib.Tactic.NormNum
import Mathlib.Order.Interval.Finset.Nat
/-
Periodicity of the generator, and its dependence on the uninitialised parameters.
-/
namespace CP
namespace TinyMT

/-- the 127 effective state bits as a number -/
def enc (r : TinyMT) : Nat := (r.status0 &&& tinymtMask).toNat * 2 ^ 64 + r.status1.toNat

theorem masked_lt (w : BitVec 64) : (w &&& tinymtMask).toNat < 2 ^ 63 := by
  rw [BitVec.toNat_and]
  exact lt_of_le_of_lt Nat.and_le_right (by decide)

theorem enc_lt (r : TinyMT) : enc r < 2 ^ 127 := by
  have h1 := masked_lt r.status0
  have h2 := r.status1.isLt
  unfold enc
  norm_num at h1 h2 ⊢
  omega

theorem enc_inj {r s : TinyMT} (h : enc r = enc s) :
    r.status0 &&& tinymtMask = s.status0 &&& tinymtMask ∧ r.status1 = s.status1 := by
  have h2 := r.status1.isLt
  have h3 := s.status1.isLt
  unfold enc at h
  have e1 : (r.status0 &&& tinymtMask).toNat = (s.status0 &&& tinymtMask).toNat := by
    generalize (r.status0 &&& tinymtMask).toNat = a at h ⊢
    generalize (s.status0 &&& tinymtMask).toNat = b at h ⊢
    omega
  have e2 : r.status1.toNat = s.status1.toNat := by rw [e1] at h; omega
  exact ⟨BitVec.eq_of_toNat_eq e1, BitVec.eq_of_toNat_eq e2⟩

theorem enc_pos {r : TinyMT} (h : ¬ Stuck r) : 0 < enc r := by
  rw [Nat.pos_iff_ne_zero]
  intro h0
  apply h
  unfold enc at h0
  have h1 : (r.status0 &&& tinymtMask).toNat = 0 := by
    generalize (r.status0 &&& tinymtMask).toNat = a at h0 ⊢
    omega
  have h2 : r.status1.toNat = 0 := by omega
  exact ⟨BitVec.eq_of_toNat_eq h1, BitVec.eq_of_toNat_eq h2⟩

theorem iterate_mat1 (r : TinyMT) (k : Nat) : (nextState^[k] r).mat1 = r.mat1 := by
  induction k with
  | zero => rfl
  | succ k ih => rw [Function.iterate_succ_apply', nextState_mat1, ih]

theorem iterate_mat2 (r : TinyMT) (k : Nat) : (nextState^[k] r).mat2 = r.mat2 := by
  induction k with
  | zero => rfl
  | succ k ih => rw [Function.iterate_succ_apply', nextState_mat2, ih]

theorem iterate_tmat (r : TinyMT) (k : Nat) : (nextState^[k] r).tmat = r.tmat := by
  induction k with
  | zero => rfl
  | succ k ih => rw [Function.iterate_succ_apply', nextState_tmat, ih]

/-- the transition depends on the effective bits only -/
theorem nextState_congr {r s : TinyMT} (h : enc r = enc s) (hm1 : r.mat1 = s.mat1)
    (hm2 : r.mat2 = s.mat2) (ht : r.tmat = s.tmat) : r.nextState = s.nextState := by
  obtain ⟨h0, h1⟩ := enc_inj h
  have hx : newX r = newX s := by unfold newX; rw [h0, h1]
  have e0 : r.nextState.status0 = s.nextState.status0 := by
    rw [nextState_status0, nextState_status0, hx, h1, hm1]
  have e1 : r.nextState.status1 = s.nextState.status1 := by
    rw [nextState_status1, nextState_status1, hx, hm2]
  cases hr : r.nextState
  cases hs : s.nextState
  have a1 := nextState_mat1 r
  have a2 := nextState_mat2 r
  have a3 := nextState_tmat r
  have b1 := nextState_mat1 s
  have b2 := nextState_mat2 s
  have b3 := nextState_tmat s
  simp only [hr, hs] at *
  simp_all

theorem enc_back {r : TinyMT} (i d : Nat) (h : enc (nextState^[i + d] r) = enc (nextState^[i] r)) :
    enc (nextState^[d] r) = enc r := by
  induction i with
  | zero => rw [Nat.zero_add] at h; exact h
  | succ i ih =>
    apply ih
    rw [show i + 1 + d = (i + d) + 1 by omega, Function.iterate_succ_apply',
      Function.iterate_succ_apply'] at h
    obtain ⟨h0, h1⟩ := enc_inj h
    obtain ⟨g0, g1⟩ := nextState_inj (by rw [iterate_mat1, iterate_mat1])
      (by rw [iterate_mat2, iterate_mat2]) h0 h1
    unfold enc
    rw [g0, g1]

theorem exists_period {r : TinyMT} (h : ¬ Stuck r) :
    ∃ p, 0 < p ∧ p ≤ 2 ^ 127 - 1 ∧ ∀ k, nextState^[k + 1 + p] r = nextState^[k + 1] r := by
  obtain ⟨a, ha, b, hb, hne, hab⟩ := Finset.exists_ne_map_eq_of_card_lt_of_maps_to
    (s := Finset.range (2 ^ 127)) (t := Finset.Ico 1 (2 ^ 127)) (f := fun k => enc (nextState^[k] r))
    (by rw [Finset.card_range, Nat.card_Ico]; norm_num)
    (by
      intro k _
      rw [Finset.mem_coe, Finset.mem_Ico]
      exact ⟨enc_pos (not_stuck_iterate h k), enc_lt _⟩)
  rw [Finset.mem_range] at ha hb
  obtain ⟨i, d, hd, hdb, he⟩ : ∃ i d, 0 < d ∧ d ≤ 2 ^ 127 - 1 ∧
      enc (nextState^[i + d] r) = enc (nextState^[i] r) := by
    rcases Nat.lt_or_gt_of_ne hne with hlt | hlt
    · exact ⟨a, b - a, by omega, by omega, by rw [show a + (b - a) = b by omega]; exact hab.symm⟩
    · exact ⟨b, a - b, by omega, by omega, by rw [show b + (a - b) = a by omega]; exact hab⟩
  have hback := enc_back i d he
  refine ⟨d, hd, hdb, fun k => ?_⟩
  have h1 : nextState^[d + 1] r = nextState r := by
    rw [Function.iterate_succ_apply']
    exact nextState_congr hback (iterate_mat1 r d) (iterate_mat2 r d) (iterate_tmat r d)
  rw [show k + 1 + d = k + (d + 1) by omega, Function.iterate_add_apply, h1, ← Function.iterate_succ_apply]

/-- the initialisation loop without parameters -/
def loopPair (a b : BitVec 64) : BitVec 64 × BitVec 64 :=
  let r := (List.range' 1 7).foldl (fun r i => r.initStep i) (⟨a, b, 0, 0, 0⟩ : TinyMT)
  (r.status0, r.status1)

theorem initStep_inj (i : Nat) {r s : TinyMT} (h0 : (r.initStep i).status0 = (s.initStep i).status0)
    (h1 : (r.initStep i).status1 = (s.initStep i).status1) :
    r.status0 = s.status0 ∧ r.status1 = s.status1 := by
  unfold initStep at h0 h1
  split at h0
  · rename_i hi
    simp only [hi, if_true] at h0 h1
    refine ⟨h0, ?_⟩
    rw [h0] at h1
    have := congrArg (· ^^^ initMix i s.status0) h1
    simpa [BitVec.xor_assoc] using this
  · rename_i hi
    simp only [hi, if_false] at h0 h1
    refine ⟨?_, h1⟩
    rw [h1] at h0
    have := congrArg (· ^^^ initMix i s.status1) h0
    simpa [BitVec.xor_assoc] using this

theorem initStep_params (i : Nat) (r : TinyMT) :
    (r.initStep i).mat1 = r.mat1 ∧ (r.initStep i).mat2 = r.mat2 ∧ (r.initStep i).tmat = r.tmat := by
  unfold initStep; split <;> exact ⟨rfl, rfl, rfl⟩

theorem initStep_status (i : Nat) {r s : TinyMT} (h0 : r.status0 = s.status0) (h1 : r.status1 = s.status1) :
    (r.initStep i).status0 = (s.initStep i).status0 ∧ (r.initStep i).status1 = (s.initStep i).status1 := by
  unfold initStep
  split <;> simp [h0, h1]

theorem loop_inj : ∀ (l : List Nat) {r s : TinyMT},
    (l.foldl (fun r i => r.initStep i) r).status0 = (l.foldl (fun r i => r.initStep i) s).status0 →
    (l.foldl (fun r i => r.initStep i) r).status1 = (l.foldl (fun r i => r.initStep i) s).status1 →
    r.status0 = s.status0 ∧ r.status1 = s.status1
  | [], _, _, h0, h1 => ⟨h0, h1⟩
  | i :: l, r, s, h0, h1 => by
    obtain ⟨g0, g1⟩ := loop_inj l (r := r.initStep i) (s := s.initStep i) h0 h1
    exact initStep_inj i g0 g1

theorem loop_params : ∀ (l : List Nat) (r : TinyMT),
    (l.foldl (fun r i => r.initStep i) r).mat1 = r.mat1 ∧
    (l.foldl (fun r i => r.initStep i) r).mat2 = r.mat2 ∧
    (l.foldl (fun r i => r.initStep i) r).tmat = r.tmat
  | [], _ => ⟨rfl, rfl, rfl⟩
  | i :: l, r => by
    obtain ⟨h1, h2, h3⟩ := loop_params l (r.initStep i)
    obtain ⟨g1, g2, g3⟩ := initStep_params i r
    exact ⟨h1.trans g1, h2.trans g2, h3.trans g3⟩

theorem loop_status : ∀ (l : List Nat) {r s : TinyMT}, r.status0 = s.status0 → r.status1 = s.status1 →
    (l.foldl (fun r i => r.initStep i) r).status0 = (l.foldl (fun r i => r.initStep i) s).status0 ∧
    (l.foldl (fun r i => r.initStep i) r).status1 = (l.foldl (fun r i => r.initStep i) s).status1
  | [], _, _, h0, h1 => ⟨h0, h1⟩
  | i :: l, r, s, h0, h1 => by
    obtain ⟨g0, g1⟩ := initStep_status i h0 h1
    exact loop_status l g0 g1

theorem loopPair_inj {a b c d : BitVec 64} (h : loopPair a b = loopPair c d) : a = c ∧ b = d := by
  unfold loopPair at h
  rw [Prod.mk.injEq] at h
  exact loop_inj _ h.1 h.2

/-- parameters chosen so that the loop starts with `status1 = p`, whatever `c` is -/
def junkOf (m c : BitVec 32) (p : BitVec 64) : TinyMT := ⟨0, 0, m, c, p ^^^ c.zeroExtend 64⟩

/-- status words after certification -/
def cert (a b : BitVec 64) : BitVec 64 × BitVec 64 :=
  if a &&& tinymtMask = 0 ∧ b = 0 then (BitVec.ofNat 64 'T'.toNat, BitVec.ofNat 64 'M'.toNat) else (a, b)

theorem init_junkOf (m c : BitVec 32) (p seed : BitVec 64) :
    (junkOf m c p).init seed =
      let ab := loopPair (seed ^^^ (m.zeroExtend 64 <<< 32)) p
      ⟨(cert ab.1 ab.2).1, (cert ab.1 ab.2).2, m, c, p ^^^ c.zeroExtend 64⟩ := by
  have hp : c.zeroExtend 64 ^^^ (p ^^^ c.zeroExtend 64) = p := by
    rw [BitVec.xor_comm p, ← BitVec.xor_assoc, BitVec.xor_self, BitVec.zero_xor]
  unfold init
  dsimp only [junkOf]
  rw [hp]
  generalize hr : (⟨seed ^^^ (m.zeroExtend 64 <<< 32), p, m, c, p ^^^ c.zeroExtend 64⟩ : TinyMT) = r
  have hl := loop_status (List.range' 1 7) (r := r)
    (s := ⟨seed ^^^ (m.zeroExtend 64 <<< 32), p, 0, 0, 0⟩) (by rw [← hr]) (by rw [← hr])
  have hq := loop_params (List.range' 1 7) r
  unfold loopPair
  dsimp only
  rw [← hl.1, ← hl.2]
  generalize (List.range' 1 7).foldl (fun r i => r.initStep i) r = q at hq ⊢
  obtain ⟨h1, h2, h3⟩ := hq
  rw [← hr] at h1 h2 h3
  unfold periodCertification cert
  cases q
  dsimp only at h1 h2 h3 ⊢
  subst h1 h2 h3
  split <;> rfl

/-- the 52 random bits of a draw -/
def draw (r : TinyMT) : BitVec 64 :=
  let z := (r.nextState.status0 + r.nextState.status1) ^^^ (r.nextState.status0 >>> 8)
  (z ^^^ (if odd z then r.tmat else 0)) >>> 12

theorem temperConvBits_eq (r : TinyMT) : r.nextState.temperConvBits = draw r ||| 0x3ff0000000000000 := by
  unfold draw
  dsimp only
  rw [← oddMask_and]
  rfl

/-- the generator after initialisation with the parameters `junkOf m c p` -/
def gen (seed : BitVec 64) (m c : BitVec 32) (p : BitVec 64) : TinyMT := (junkOf m c p).init seed

/-- the sum before tempering -/
def zOf (r : TinyMT) : BitVec 64 :=
  (r.nextState.status0 + r.nextState.status1) ^^^ (r.nextState.status0 >>> 8)

theorem draw_eq (r : TinyMT) : draw r = (zOf r ^^^ (if odd (zOf r) then r.tmat else 0)) >>> 12 := rfl

theorem gen_status (seed : BitVec 64) (m c d : BitVec 32) (p : BitVec 64) :
    (gen seed m c p).status0 = (gen seed m d p).status0 ∧
    (gen seed m c p).status1 = (gen seed m d p).status1 := by
  unfold gen
  rw [init_junkOf, init_junkOf]
  exact ⟨rfl, rfl⟩

theorem gen_mat1 (seed : BitVec 64) (m c : BitVec 32) (p : BitVec 64) : (gen seed m c p).mat1 = m := by
  unfold gen; rw [init_junkOf]
theorem gen_mat2 (seed : BitVec 64) (m c : BitVec 32) (p : BitVec 64) : (gen seed m c p).mat2 = c := by
  unfold gen; rw [init_junkOf]
theorem gen_tmat (seed : BitVec 64) (m c : BitVec 32) (p : BitVec 64) :
    (gen seed m c p).tmat = p ^^^ c.zeroExtend 64 := by
  unfold gen; rw [init_junkOf]

theorem gen_newX (seed : BitVec 64) (m c d : BitVec 32) (p : BitVec 64) :
    newX (gen seed m c p) = newX (gen seed m d p) := by
  unfold newX
  rw [(gen_status seed m c d p).1, (gen_status seed m c d p).2]

theorem getLsbD_add_congr {a b c : BitVec 64} (h : ∀ i, i < 32 → b.getLsbD i = c.getLsbD i) {i : Nat}
    (hi : i < 32) : (a + b).getLsbD i = (a + c).getLsbD i := by
  have hbc : b.setWidth 32 = c.setWidth 32 := by
    apply BitVec.eq_of_getLsbD_eq
    intro j hj
    simp only [BitVec.getLsbD_setWidth, hj, decide_true, Bool.true_and]
    exact h j hj
  have e : (a + b).setWidth 32 = (a + c).setWidth 32 := by
    rw [BitVec.setWidth_add _ _ (by decide), BitVec.setWidth_add _ _ (by decide), hbc]
  have := congrArg (fun z => z.getLsbD i) e
  simpa only [BitVec.getLsbD_setWidth, hi, decide_true, Bool.true_and] using this

/-- flipping bit 12 of the (shared) parameters changes the draw, unless neither parameter is used -/
theorem draw_ne (seed : BitVec 64) (m : BitVec 32) (p : BitVec 64)
    (h : odd (newX (gen seed m 0 p)) = true ∨ odd (zOf (gen seed m 0 p)) = true) :
    draw (gen seed m 0 p) ≠ draw (gen seed m 0x1000 p) := by
  intro he
  have hX := gen_newX seed m 0 0x1000 p
  have hs1 := (gen_status seed m 0 0x1000 p).2
  -- first status word
  have e0 : (gen seed m 0x1000 p).nextState.status0 = (gen seed m 0 p).nextState.status0 := by
    rw [nextState_status0, nextState_status0, ← hX, gen_mat1, gen_mat1, hs1]
  -- low half of the sum
  have hlow1 : ∀ i, i < 32 → (gen seed m 0x1000 p).nextState.status1.getLsbD i =
      (gen seed m 0 p).nextState.status1.getLsbD i := by
    intro i hi
    rw [nextState_status1, nextState_status1, ← hX, gen_mat2, gen_mat2]
    split
    · simp only [BitVec.getLsbD_xor, BitVec.getLsbD_shiftLeft, hi, decide_true, Bool.not_true, Bool.and_false,
        Bool.false_and]
    · rfl
  have hlow : ∀ i, i < 32 → (zOf (gen seed m 0x1000 p)).getLsbD i = (zOf (gen seed m 0 p)).getLsbD i := by
    intro i hi
    unfold zOf
    rw [e0, BitVec.getLsbD_xor, BitVec.getLsbD_xor, getLsbD_add_congr hlow1 hi]
  have hoddz : odd (zOf (gen seed m 0x1000 p)) = odd (zOf (gen seed m 0 p)) := hlow 0 (by decide)
  rw [draw_eq, draw_eq, hoddz, gen_tmat, gen_tmat] at he
  cases hz : odd (zOf (gen seed m 0 p)) with
  | true =>
    rw [hz] at he
    have := congrArg (fun w => w.getLsbD 0) he
    simp only [BitVec.getLsbD_ushiftRight, BitVec.getLsbD_xor, if_true, Nat.add_zero, hlow 12 (by decide)] at this
    revert this
    have h1 : (BitVec.zeroExtend 64 (0 : BitVec 32)).getLsbD 12 = false := by decide
    have h2 : (BitVec.zeroExtend 64 (0x1000 : BitVec 32)).getLsbD 12 = true := by decide
    rw [h1, h2]
    cases (zOf (gen seed m 0 p)).getLsbD 12 <;> cases p.getLsbD 12 <;> simp
  | false =>
    have hx : odd (newX (gen seed m 0 p)) = true := by
      rcases h with h | h
      · exact h
      · rw [hz] at h; cases h
    rw [hz] at he
    have hzz : zOf (gen seed m 0 p) = zOf (gen seed m 0x1000 p) := by
      apply BitVec.eq_of_getLsbD_eq
      intro i hi
      by_cases hi' : i < 32
      · exact (hlow i hi').symm
      · have := congrArg (fun w => w.getLsbD (i - 12)) he
        simpa [BitVec.getLsbD_ushiftRight, show 12 + (i - 12) = i by omega] using this
    unfold zOf at hzz
    rw [e0] at hzz
    have hsum := congrArg (· ^^^ ((gen seed m 0 p).nextState.status0 >>> 8)) hzz
    simp only [BitVec.xor_assoc, BitVec.xor_self, BitVec.xor_zero] at hsum
    have hb : (gen seed m 0 p).nextState.status1 = (gen seed m 0x1000 p).nextState.status1 := by
      have := congrArg (fun w => -(gen seed m 0 p).nextState.status0 + w) hsum
      simpa [← BitVec.add_assoc] using this
    rw [nextState_status1, nextState_status1, ← hX, hx, gen_mat2, gen_mat2] at hb
    have := congrArg (fun w => w.getLsbD 44) hb
    revert this
    simp only [if_true, BitVec.getLsbD_xor]
    have h1 : (BitVec.zeroExtend 64 (0 : BitVec 32) <<< 32).getLsbD 44 = false := by decide
    have h2 : (BitVec.zeroExtend 64 (0x1000 : BitVec 32) <<< 32).getLsbD 44 = true := by decide
    rw [h1, h2]
    cases (newX (gen seed m 0 p)).getLsbD 44 <;> simp

/-- the start of the loop -/
def startPair (seed : BitVec 64) (m : BitVec 32) (p : BitVec 64) : BitVec 64 × BitVec 64 :=
  loopPair (seed ^^^ (m.zeroExtend 64 <<< 32)) p

theorem startPair_inj {seed : BitVec 64} {m m' : BitVec 32} {p p' : BitVec 64}
    (h : startPair seed m p = startPair seed m' p') : m = m' ∧ p = p' := by
  obtain ⟨h1, h2⟩ := loopPair_inj h
  refine ⟨?_, h2⟩
  have h3 : m.zeroExtend 64 <<< 32 = m'.zeroExtend 64 <<< 32 := by
    have := congrArg (fun w => seed ^^^ w) h1
    simpa [← BitVec.xor_assoc] using this
  apply BitVec.eq_of_getLsbD_eq
  intro i hi
  have := congrArg (fun w => w.getLsbD (i + 32)) h3
  simpa [show i + 32 < 64 by omega, show i < 64 by omega] using this

theorem no_injection (f : BitVec 32 × BitVec 64 → Bool × Bool × BitVec 64 × BitVec 12)
    (hf : Function.Injective f) : False := by
  let g : BitVec 32 × BitVec 64 → Nat := fun q => q.1.toNat * 2 ^ 64 + q.2.toNat
  let enc' : Bool × Bool × BitVec 64 × BitVec 12 → Nat := fun q =>
    ((q.1.toNat * 2 + q.2.1.toNat) * 2 ^ 64 + q.2.2.1.toNat) * 2 ^ 12 + q.2.2.2.toNat
  have hdec : Function.Injective enc' := by
    rintro ⟨a, b, c, d⟩ ⟨a', b', c', d'⟩ h
    simp only [enc'] at h
    have hc := c.isLt
    have hc' := c'.isLt
    have hd := d.isLt
    have hd' := d'.isLt
    have e4 : d.toNat = d'.toNat := by omega
    have e3 : c.toNat = c'.toNat := by omega
    have e2 : b.toNat = b'.toNat := by
      have := Bool.toNat_le b
      have := Bool.toNat_le b'
      omega
    have e1 : a.toNat = a'.toNat := by omega
    rw [BitVec.eq_of_toNat_eq e4, BitVec.eq_of_toNat_eq e3, show b = b' by revert e2; cases b <;> cases b' <;> simp, show a = a' by revert e1; cases a <;> cases a' <;> simp]
  let F : Nat → Nat := fun k => enc' (f (BitVec.ofNat 32 (k / 2 ^ 64), BitVec.ofNat 64 (k % 2 ^ 64)))
  obtain ⟨a, ha, b, hb, hne, hab⟩ := Finset.exists_ne_map_eq_of_card_lt_of_maps_to
    (s := Finset.range (2 ^ 96)) (t := Finset.range (2 ^ 78)) (f := F)
    (by rw [Finset.card_range, Finset.card_range]; norm_num)
    (by
      intro k _
      rw [Finset.mem_coe, Finset.mem_range]
      simp only [F]
      generalize f _ = q
      obtain ⟨a, b, c, d⟩ := q
      simp only [enc']
      have hc := c.isLt
      have hd := d.isLt
      have := Bool.toNat_le b
      have := Bool.toNat_le a
      omega)
  rw [Finset.mem_range] at ha hb
  have h := hf (hdec hab)
  rw [Prod.mk.injEq] at h
  have h1 := congrArg BitVec.toNat h.1
  have h2 := congrArg BitVec.toNat h.2
  rw [BitVec.toNat_ofNat, BitVec.toNat_ofNat] at h1 h2
  apply hne
  omega

/-- For every seed there are two contents of the uninitialised parameters with different first draws:
otherwise more than `2^90` parameter contents would have to be squeezed into fewer states. -/
theorem exists_draw_ne (seed : BitVec 64) :
    ∃ m c p m' c' p', draw (gen seed m c p) ≠ draw (gen seed m' c' p') := by
  by_contra hcon
  push Not at hcon
  have heven : ∀ m p, odd (newX (gen seed m 0 p)) = false ∧ odd (zOf (gen seed m 0 p)) = false := by
    intro m p
    constructor <;>
    · rw [Bool.eq_false_iff]
      intro h
      exact draw_ne seed m p (by first | exact Or.inl h | exact Or.inr h) (hcon m 0 p m 0x1000 p)
  let top (w : BitVec 64) : Bool := w.getLsbD 63
  apply no_injection (fun q =>
    (decide ((startPair seed q.1 q.2).1 &&& tinymtMask = 0 ∧ (startPair seed q.1 q.2).2 = 0),
      top (startPair seed q.1 q.2).1, (gen seed q.1 0 q.2).status1,
      (zOf (gen seed q.1 0 q.2)).setWidth 12))
  focus
    rintro ⟨m, p⟩ ⟨m', p'⟩ hΦ
    simp only [Prod.mk.injEq] at hΦ
    obtain ⟨hflag, htop, hs1, hz12⟩ := hΦ
    obtain ⟨hx, hz⟩ := heven m p
    obtain ⟨hx', hz'⟩ := heven m' p'
    have hd := hcon m 0 p m' 0 p'
    rw [draw_eq, draw_eq, hz, hz'] at hd
    have hzz : zOf (gen seed m 0 p) = zOf (gen seed m' 0 p') := by
      apply BitVec.eq_of_getLsbD_eq
      intro i hi
      by_cases hi' : i < 12
      · have := congrArg (fun w => w.getLsbD i) hz12
        simpa [hi'] using this
      · have := congrArg (fun w => w.getLsbD (i - 12)) hd
        simpa [BitVec.getLsbD_ushiftRight, show 12 + (i - 12) = i by omega] using this
    unfold zOf at hzz
    rw [nextState_status0, nextState_status0, nextState_status1, nextState_status1, hx, hx', hs1] at hzz
    simp only [Bool.false_eq_true, if_false] at hzz
    have hsum := congrArg (· ^^^ ((gen seed m' 0 p').status1 >>> 8)) hzz
    simp only [BitVec.xor_assoc, BitVec.xor_self, BitVec.xor_zero] at hsum
    have hX : newX (gen seed m 0 p) = newX (gen seed m' 0 p') := by
      have := congrArg (fun w => -(gen seed m' 0 p').status1 + w) hsum
      simpa [← BitVec.add_assoc] using this
    have hy := mix_inj hX
    rw [hs1] at hy
    have hs0 : (gen seed m 0 p).status0 &&& tinymtMask =
        (gen seed m' 0 p').status0 &&& tinymtMask := by
      have := congrArg (· ^^^ (gen seed m' 0 p').status1) hy
      simpa [BitVec.xor_assoc] using this
    have hmask : ∀ (a b : BitVec 64), a &&& tinymtMask = b &&& tinymtMask → top a = top b → a = b := by
      intro a b hab ht
      apply BitVec.eq_of_getLsbD_eq
      intro i hi
      by_cases hi' : i < 63
      · have := congrArg (fun w => w.getLsbD i) hab
        have hm : tinymtMask.getLsbD i = true :=
          (by decide : ∀ i, i < 63 → tinymtMask.getLsbD i = true) i hi'
        simpa [BitVec.getLsbD_and, hm] using this
      · have : i = 63 := by omega
        subst this; exact ht
    have hpair : startPair seed m p = startPair seed m' p' := by
      have g0 : gen seed m 0 p = _ := init_junkOf m 0 p seed
      have g1 : gen seed m' 0 p' = _ := init_junkOf m' 0 p' seed
      rw [g0, g1] at hs0 hs1
      dsimp only at hs0 hs1
      change (cert (startPair seed m p).1 (startPair seed m p).2).1 &&& tinymtMask =
        (cert (startPair seed m' p').1 (startPair seed m' p').2).1 &&& tinymtMask at hs0
      change (cert (startPair seed m p).1 (startPair seed m p).2).2 =
        (cert (startPair seed m' p').1 (startPair seed m' p').2).2 at hs1
      generalize startPair seed m p = ab at *
      generalize startPair seed m' p' = ab' at *
      obtain ⟨a, b⟩ := ab
      obtain ⟨a', b'⟩ := ab'
      dsimp only at *
      unfold cert at hs0 hs1
      by_cases hc : a &&& tinymtMask = 0 ∧ b = 0
      · have hc' : a' &&& tinymtMask = 0 ∧ b' = 0 := by
          have : decide (a' &&& tinymtMask = 0 ∧ b' = 0) = true := by rw [← hflag]; exact decide_eq_true hc
          exact of_decide_eq_true this
        rw [Prod.mk.injEq]
        exact ⟨hmask a a' (by rw [hc.1, hc'.1]) htop, by rw [hc.2, hc'.2]⟩
      · have hc' : ¬ (a' &&& tinymtMask = 0 ∧ b' = 0) := by
          have : decide (a' &&& tinymtMask = 0 ∧ b' = 0) = false := by rw [← hflag]; exact decide_eq_false hc
          exact of_decide_eq_false this
        rw [if_neg hc, if_neg hc'] at hs0 hs1
        rw [Prod.mk.injEq]
        exact ⟨hmask a a' hs0 htop, hs1⟩
    obtain ⟨hm, hp⟩ := startPair_inj hpair
    rw [Prod.mk.injEq]
    exact ⟨hm, hp⟩

end TinyMT
end CP
