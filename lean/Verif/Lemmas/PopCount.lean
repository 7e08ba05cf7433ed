import Verif.Model.PopCount
import Mathlib.Tactic.Ring
/-! Kernel-checked correctness of the SWAR bit counter, byte by byte. -/

namespace Zounds.PopCount

/-- A number from its base-256 digits, least significant first. -/
def ofBytes : List Nat → Nat
  | [] => 0
  | b :: bs => b + 256 * ofBytes bs

/-- The same byte `m` repeated `n` times. -/
def rep (m : Nat) (n : Nat) : Nat := ofBytes (List.replicate n m)

theorem testBit_cons (b x i : Nat) (hb : b < 256) :
    (b + 256 * x).testBit i = if i < 8 then b.testBit i else x.testBit (i - 8) := by
  have := Nat.testBit_two_pow_mul_add x (b := b) (i := 8) (by simpa using hb) i
  rw [← this]
  congr 1
  simp [Nat.add_comm]

theorem and_cons (b m x y : Nat) (hb : b < 256) (hm : m < 256) :
    (b + 256 * x) &&& (m + 256 * y) = (b &&& m) + 256 * (x &&& y) := by
  have hbm : b &&& m < 256 := Nat.lt_of_le_of_lt Nat.and_le_left hb
  apply Nat.eq_of_testBit_eq
  intro i
  rw [Nat.testBit_and, testBit_cons _ _ _ hb, testBit_cons _ _ _ hm, testBit_cons _ _ _ hbm]
  split <;> simp

/-- Shifting right by `k < 8` and masking with a byte mask below `2^(8-k)` acts
byte by byte. -/
theorem shift_and_cons (k b m x y : Nat) (hk : k ≤ 8) (hb : b < 256) (hm : m < 2 ^ (8 - k)) :
    ((b + 256 * x) >>> k) &&& (m + 256 * y) = ((b >>> k) &&& m) + 256 * ((x >>> k) &&& y) := by
  have hm' : m < 256 := by
    have : (2:Nat) ^ (8 - k) ≤ 2 ^ 8 := Nat.pow_le_pow_right (by omega) (by omega)
    omega
  have hbm : (b >>> k) &&& m < 256 := Nat.lt_of_le_of_lt Nat.and_le_right hm'
  apply Nat.eq_of_testBit_eq
  intro i
  rw [Nat.testBit_and, Nat.testBit_shiftRight, testBit_cons _ _ _ hb, testBit_cons _ _ _ hm',
    testBit_cons _ _ _ hbm, Nat.testBit_and, Nat.testBit_and, Nat.testBit_shiftRight,
    Nat.testBit_shiftRight]
  by_cases hi : i < 8
  · simp only [hi, if_true]
    by_cases hki : k + i < 8
    · simp [hki]
    · have : m.testBit i = false := by
        apply Nat.testBit_lt_two_pow
        exact Nat.lt_of_lt_of_le hm (Nat.pow_le_pow_right (by omega) (by omega))
      simp [this]
  · have h1 : ¬ (k + i < 8) := by omega
    have h2 : k + i - 8 = k + (i - 8) := by omega
    simp [hi, h1, h2]

theorem and_rep (m : Nat) (hm : m < 256) (bs : List Nat) (h : ∀ b ∈ bs, b < 256) :
    ofBytes bs &&& rep m bs.length = ofBytes (bs.map (· &&& m)) := by
  induction bs with
  | nil => simp [ofBytes, rep]
  | cons b bs ih =>
    have ih := ih (fun x hx => h x (by simp [hx]))
    unfold rep at *
    simp only [List.length_cons, List.replicate_succ, ofBytes, List.map_cons]
    rw [and_cons _ _ _ _ (h b (by simp)) hm, ih]

theorem shift_and_rep (k m : Nat) (hk : k ≤ 8) (hm : m < 2 ^ (8 - k)) (bs : List Nat)
    (h : ∀ b ∈ bs, b < 256) :
    (ofBytes bs >>> k) &&& rep m bs.length = ofBytes (bs.map fun b => (b >>> k) &&& m) := by
  induction bs with
  | nil => simp [ofBytes, rep]
  | cons b bs ih =>
    have ih := ih (fun x hx => h x (by simp [hx]))
    unfold rep at *
    simp only [List.length_cons, List.replicate_succ, ofBytes, List.map_cons]
    rw [shift_and_cons _ _ _ _ _ hk (h b (by simp)) hm, ih]

theorem ofBytes_add (bs : List Nat) (f g : Nat → Nat) :
    ofBytes (bs.map f) + ofBytes (bs.map g) = ofBytes (bs.map fun b => f b + g b) := by
  induction bs with
  | nil => rfl
  | cons b bs ih => simp only [List.map_cons, ofBytes, ← ih]; omega

theorem ofBytes_sub (bs : List Nat) (f g : Nat → Nat) (h : ∀ b ∈ bs, g b ≤ f b) :
    ofBytes (bs.map f) - ofBytes (bs.map g) = ofBytes (bs.map fun b => f b - g b) ∧
    ofBytes (bs.map g) ≤ ofBytes (bs.map f) := by
  induction bs with
  | nil => exact ⟨rfl, Nat.le_refl _⟩
  | cons b bs ih =>
    have ih := ih (fun x hx => h x (by simp [hx]))
    have := h b (by simp)
    simp only [List.map_cons, ofBytes]
    constructor
    · rw [← ih.1]; omega
    · omega

theorem ofBytes_lt (bs : List Nat) (h : ∀ b ∈ bs, b < 256) : ofBytes bs < 256 ^ bs.length := by
  induction bs with
  | nil => simp [ofBytes]
  | cons b bs ih =>
    have ih := ih (fun x hx => h x (by simp [hx]))
    have := h b (by simp)
    simp only [ofBytes, List.length_cons, Nat.pow_succ]
    omega

/-- Shifting right by 4 and masking low nibbles after adding: no interference. -/
theorem add_shift4_and (bs : List Nat) (h : ∀ b ∈ bs, b &&& 15 ≤ 4 ∧ b >>> 4 ≤ 4) :
    (ofBytes bs + (ofBytes bs >>> 4)) &&& rep 15 bs.length =
      ofBytes (bs.map fun b => (b &&& 15) + (b >>> 4)) := by
  have key : ∀ bs : List Nat, (∀ b ∈ bs, b &&& 15 ≤ 4 ∧ b >>> 4 ≤ 4) → ∀ c, c ≤ 4 →
      -- `c * 16` is what the next byte's low nibble contributes
      ∃ hs : List Nat, hs.length = bs.length ∧ (∀ x ∈ hs, x < 256) ∧
        ofBytes bs + (ofBytes bs >>> 4) = ofBytes hs ∧
        hs.map (· &&& 15) = bs.map fun b => (b &&& 15) + (b >>> 4) := by
    intro bs
    induction bs with
    | nil => intro _ c _; exact ⟨[], rfl, by simp, rfl, rfl⟩
    | cons b bs ih =>
      intro h c hc
      obtain ⟨hs, h1, h2, h3, h4⟩ := ih (fun x hx => h x (by simp [hx])) 0 (by omega)
      have hb := h b (by simp)
      have e15 : ∀ n : Nat, n &&& 15 = n % 16 := fun n => Nat.and_two_pow_sub_one_eq_mod n 4
      have esh : ∀ n : Nat, n >>> 4 = n / 16 := fun n => Nat.shiftRight_eq_div_pow n 4
      simp only [e15, esh] at *
      have hnext : ofBytes bs % 16 ≤ 4 := by
        cases bs with
        | nil => simp [ofBytes]
        | cons b' bs' =>
          have := (h b' (by simp)).1
          simp only [ofBytes]; omega
      refine ⟨(b + b / 16 + 16 * (ofBytes bs % 16)) :: hs, by simp [h1], ?_, ?_, ?_⟩
      · intro x hx
        rcases List.mem_cons.1 hx with rfl | hx
        · omega
        · exact h2 x hx
      · simp only [ofBytes]
        rw [← h3]
        omega
      · simp only [List.map_cons, h4]
        congr 1
        omega
  obtain ⟨hs, h1, h2, h3, h4⟩ := key bs h 0 (by omega)
  rw [h3, ← h1, and_rep 15 (by omega) hs h2, h4]

/-- Number of one bits among the lowest `n` bits. -/
def popN (n x : Nat) : Nat := ((List.range n).filter fun i => x.testBit i).length

theorem popN_add (m n x : Nat) : popN (m + n) x = popN m x + popN n (x >>> m) := by
  unfold popN
  rw [List.range_add, List.filter_append, List.length_append]
  congr 1
  rw [List.filter_map, List.length_map]
  congr 1
  apply List.filter_congr
  intro i _
  simp [Nat.testBit_shiftRight]

theorem popN_congr (n x y : Nat) (h : ∀ i, i < n → x.testBit i = y.testBit i) :
    popN n x = popN n y := by
  unfold popN
  congr 1
  apply List.filter_congr
  intro i hi
  exact h i (by simpa using hi)

theorem popN_ofBytes (bs : List Nat) (h : ∀ b ∈ bs, b < 256) :
    popN (8 * bs.length) (ofBytes bs) = (bs.map (popN 8)).sum := by
  induction bs with
  | nil => rfl
  | cons b bs ih =>
    have ih := ih (fun x hx => h x (by simp [hx]))
    have hb := h b (by simp)
    rw [List.length_cons, Nat.mul_add, Nat.add_comm (8 * bs.length), popN_add]
    simp only [List.map_cons, List.sum_cons, ofBytes]
    rw [← ih]
    congr 1
    · apply popN_congr
      intro i hi
      rw [testBit_cons _ _ _ hb]; simp [show i < 8 by omega]
    · congr 1
      rw [Nat.shiftRight_eq_div_pow]
      omega

/-- The per-byte composite of the three masking steps counts the bits of a byte:
checked on all 256 bytes. -/
theorem byte_steps : ∀ b : Fin 256,
    let f1 := b.val - ((b.val >>> 1) &&& 0x55)
    let f2 := (f1 &&& 0x33) + ((f1 >>> 2) &&& 0x33)
    ((b.val >>> 1) &&& 0x55) ≤ b.val ∧ f1 < 256 ∧ f2 < 256 ∧
    (f2 &&& 15 ≤ 4 ∧ f2 >>> 4 ≤ 4) ∧ (f2 &&& 15) + (f2 >>> 4) = popN 8 b.val ∧ popN 8 b.val ≤ 8 := by
  decide +kernel

/-- The eight bytes of a word. -/
def bytesOf (n : Nat) : Nat → List Nat
  | 0 => []
  | k + 1 => (n % 256) :: bytesOf (n / 256) k

theorem ofBytes_bytesOf (k n : Nat) (h : n < 256 ^ k) : ofBytes (bytesOf n k) = n := by
  induction k generalizing n with
  | zero => simp at h; subst h; rfl
  | succ k ih =>
    rw [Nat.pow_succ] at h
    simp only [bytesOf, ofBytes]
    rw [ih (n / 256) (by omega)]
    omega

theorem bytesOf_lt (k n : Nat) : ∀ b ∈ bytesOf n k, b < 256 := by
  induction k generalizing n with
  | zero => simp [bytesOf]
  | succ k ih =>
    intro b hb
    rcases List.mem_cons.1 hb with rfl | hb
    · exact Nat.mod_lt _ (by omega)
    · exact ih _ b hb

theorem bytesOf_length (k n : Nat) : (bytesOf n k).length = k := by
  induction k generalizing n with
  | zero => rfl
  | succ k ih => simp [bytesOf, ih]

/-- The final multiplication gathers the byte sum in the top byte. -/
theorem gather (x0 x1 x2 x3 x4 x5 x6 x7 : Nat)
    (h : x0 ≤ 8 ∧ x1 ≤ 8 ∧ x2 ≤ 8 ∧ x3 ≤ 8 ∧ x4 ≤ 8 ∧ x5 ≤ 8 ∧ x6 ≤ 8 ∧ x7 ≤ 8) :
    ofBytes [x0,x1,x2,x3,x4,x5,x6,x7] * 0x0101010101010101 % 2 ^ 64 / 2 ^ 56 =
      x0 + x1 + x2 + x3 + x4 + x5 + x6 + x7 := by
  obtain ⟨K, hK⟩ : ∃ K, K = (x1 + x2 + x3 + x4 + x5 + x6 + x7) * 1 + (x2 + x3 + x4 + x5 + x6 + x7) * 256 + (x3 + x4 + x5 + x6 + x7) * 65536 + (x4 + x5 + x6 + x7) * 16777216 + (x5 + x6 + x7) * 4294967296 + (x6 + x7) * 1099511627776 + (x7) * 281474976710656 := ⟨_, rfl⟩
  obtain ⟨R, hR⟩ : ∃ R, R = (x0) * 1 + (x0 + x1) * 256 + (x0 + x1 + x2) * 65536 + (x0 + x1 + x2 + x3) * 16777216 + (x0 + x1 + x2 + x3 + x4) * 4294967296 + (x0 + x1 + x2 + x3 + x4 + x5) * 1099511627776 + (x0 + x1 + x2 + x3 + x4 + x5 + x6) * 281474976710656 := ⟨_, rfl⟩
  have hR' : R < 2 ^ 56 := by omega
  have e : ofBytes [x0,x1,x2,x3,x4,x5,x6,x7] * 0x0101010101010101 =
      R + 2 ^ 56 * (x0 + x1 + x2 + x3 + x4 + x5 + x6 + x7) + 2 ^ 64 * K := by
    subst hK hR
    simp only [ofBytes]
    ring
  rw [e]
  clear e hK hR
  omega

/-- The three masking steps on one byte. -/
def f1 (b : Nat) : Nat := b - ((b >>> 1) &&& 0x55)
def f2 (b : Nat) : Nat := (f1 b &&& 0x33) + ((f1 b >>> 2) &&& 0x33)
def f3 (b : Nat) : Nat := (f2 b &&& 15) + (f2 b >>> 4)

theorem byte_facts (b : Nat) (h : b < 256) :
    ((b >>> 1) &&& 0x55) ≤ b ∧ f1 b < 256 ∧ f2 b < 256 ∧
      (f2 b &&& 15 ≤ 4 ∧ f2 b >>> 4 ≤ 4) ∧ f3 b = popN 8 b ∧ popN 8 b ≤ 8 :=
  byte_steps ⟨b, h⟩

theorem r55 : rep 0x55 8 = 0x5555555555555555 := by decide
theorem r33 : rep 0x33 8 = 0x3333333333333333 := by decide
theorem r0f : rep 15 8 = 0x0F0F0F0F0F0F0F0F := by decide

theorem step1 (n : BitVec 64) (bs : List Nat) (hbs : ofBytes bs = n.toNat)
    (hlt : ∀ b ∈ bs, b < 256) (hlen : bs.length = 8) :
    (n - ((n >>> 1) &&& 0x5555555555555555#64)).toNat = ofBytes (bs.map f1) := by
  have hs : ((n >>> 1) &&& 0x5555555555555555#64).toNat = ofBytes (bs.map fun b => (b >>> 1) &&& 0x55) := by
    have := shift_and_rep 1 0x55 (by omega) (by decide) bs hlt
    rw [hlen, r55, hbs] at this
    rw [BitVec.toNat_and, BitVec.toNat_ushiftRight, BitVec.toNat_ofNat]
    rw [Nat.mod_eq_of_lt (by decide)]
    exact this
  have hsub := ofBytes_sub bs (fun b => b) (fun b => (b >>> 1) &&& 0x55)
    (fun b h => (byte_facts b (hlt b h)).1)
  have hid : ofBytes (bs.map fun b => b) = n.toNat := by simpa using hbs
  rw [hid] at hsub
  have hle : ((n >>> 1) &&& 0x5555555555555555#64) ≤ n := by
    rw [BitVec.le_def, hs]; exact hsub.2
  rw [BitVec.toNat_sub_of_le hle, hs, hsub.1]
  rfl

theorem step2 (z : BitVec 64) (bs : List Nat) (hz : z.toNat = ofBytes (bs.map f1))
    (hlt : ∀ b ∈ bs, b < 256) (hlen : bs.length = 8) :
    ((z &&& 0x3333333333333333#64) + ((z >>> 2) &&& 0x3333333333333333#64)).toNat =
      ofBytes (bs.map f2) := by
  have hlt1 : ∀ b ∈ bs.map f1, b < 256 := by
    intro b h
    obtain ⟨x, hx, rfl⟩ := List.mem_map.1 h
    exact (byte_facts x (hlt x hx)).2.1
  have hlen1 : (bs.map f1).length = 8 := by simp [hlen]
  have hlt2 : ∀ b ∈ bs.map f2, b < 256 := by
    intro b h
    obtain ⟨x, hx, rfl⟩ := List.mem_map.1 h
    exact (byte_facts x (hlt x hx)).2.2.1
  have hlen2 : (bs.map f2).length = 8 := by simp [hlen]
  have ha := and_rep 0x33 (by decide) (bs.map f1) hlt1
  have hs := shift_and_rep 2 0x33 (by omega) (by decide) (bs.map f1) hlt1
  rw [hlen1, r33] at ha hs
  rw [List.map_map] at ha hs
  have hadd := ofBytes_add bs (fun b => f1 b &&& 0x33) (fun b => (f1 b >>> 2) &&& 0x33)
  rw [BitVec.toNat_add, BitVec.toNat_and, BitVec.toNat_and, BitVec.toNat_ushiftRight,
    BitVec.toNat_ofNat, Nat.mod_eq_of_lt (by decide : (3689348814741910323 : Nat) < 2 ^ 64), hz, ha, hs]
  have e2 : ofBytes (bs.map ((fun x => x &&& 0x33) ∘ f1)) + ofBytes (bs.map ((fun b => (b >>> 2) &&& 0x33) ∘ f1))
      = ofBytes (bs.map f2) := hadd
  rw [e2]
  apply Nat.mod_eq_of_lt
  have := ofBytes_lt (bs.map f2) hlt2
  rw [hlen2] at this
  simpa using this

theorem step3 (z : BitVec 64) (bs : List Nat) (hz : z.toNat = ofBytes (bs.map f2))
    (hlt : ∀ b ∈ bs, b < 256) (hlen : bs.length = 8) :
    ((z + (z >>> 4)) &&& 0x0F0F0F0F0F0F0F0F#64).toNat = ofBytes (bs.map f3) := by
  have hlen2 : (bs.map f2).length = 8 := by simp [hlen]
  have hnib : ∀ b ∈ bs.map f2, b &&& 15 ≤ 4 ∧ b >>> 4 ≤ 4 := by
    intro b h
    obtain ⟨x, hx, rfl⟩ := List.mem_map.1 h
    exact (byte_facts x (hlt x hx)).2.2.2.1
  have h3 := add_shift4_and (bs.map f2) hnib
  rw [hlen2, r0f, List.map_map] at h3
  have hnoov : z.toNat + z.toNat >>> 4 < 2 ^ 64 := by
    have : ∀ b ∈ bs.map f2, b ≤ 68 := by
      intro b h
      have h1 := hnib b h
      have e15 : b &&& 15 = b % 16 := Nat.and_two_pow_sub_one_eq_mod b 4
      have esh : b >>> 4 = b / 16 := Nat.shiftRight_eq_div_pow b 4
      rw [e15, esh] at h1; omega
    have hbound : ∀ l : List Nat, (∀ b ∈ l, b ≤ 68) → ofBytes l * 2 < 256 ^ l.length := by
      intro l
      induction l with
      | nil => intro _; simp [ofBytes]
      | cons x xs ih =>
        intro h
        have := ih (fun y hy => h y (by simp [hy]))
        have := h x (by simp)
        simp only [ofBytes, List.length_cons, Nat.pow_succ]; omega
    have := hbound _ this
    rw [hlen2] at this
    rw [hz, Nat.shiftRight_eq_div_pow]
    generalize ofBytes (bs.map f2) = t at *
    omega
  rw [BitVec.toNat_and, BitVec.toNat_add, BitVec.toNat_ushiftRight, BitVec.toNat_ofNat,
    Nat.mod_eq_of_lt hnoov, Nat.mod_eq_of_lt (by decide), hz]
  exact h3

theorem countBits_toNat (n : BitVec 64) : (countBits n).toNat = popN 64 n.toNat := by
  have hn : n.toNat < 256 ^ 8 := by have := n.isLt; simpa using this
  obtain ⟨bs, hbs, hlt, hlen⟩ : ∃ bs : List Nat, ofBytes bs = n.toNat ∧ (∀ b ∈ bs, b < 256) ∧
      bs.length = 8 :=
    ⟨bytesOf n.toNat 8, ofBytes_bytesOf 8 _ hn, bytesOf_lt _ _, bytesOf_length _ _⟩
  have hz1 := step1 n bs hbs hlt hlen
  have hz2 := step2 _ bs hz1 hlt hlen
  have hz3 := step3 _ bs hz2 hlt hlen
  unfold countBits
  dsimp only
  rw [BitVec.toNat_ushiftRight, BitVec.toNat_mul, hz3, BitVec.toNat_ofNat,
    Nat.shiftRight_eq_div_pow]
  have hpop := popN_ofBytes bs hlt
  rw [hlen, hbs] at hpop
  rw [hpop]
  have hmap : bs.map f3 = bs.map (popN 8) :=
    List.map_congr_left fun b h => (byte_facts b (hlt b h)).2.2.2.2.1
  rw [hmap]
  have h8 : ∀ b ∈ bs, popN 8 b ≤ 8 := fun b h => (byte_facts b (hlt b h)).2.2.2.2.2
  clear hz1 hz2 hz3 hpop hmap hbs hlt
  match bs, hlen, h8 with
  | [b0,b1,b2,b3,b4,b5,b6,b7], _, h8 =>
    simp only [List.map_cons, List.map_nil]
    rw [Nat.mod_eq_of_lt (by decide : (72340172838076673 : Nat) < 2 ^ 64), gather]
    · simp only [List.sum_cons, List.sum_nil]; omega
    · simp at h8; exact h8

end Zounds.PopCount
