import Verif.Color.Model

/-!
# Colours (properties C37, C38)
-/

namespace Verif.Color
open Verif.Names (Str)

/-! ### specification -/

/-- `v` is the value of the hexadecimal digit `c` (upper or lower case). -/
inductive Digit : Nat → Nat → Prop where
  | dec (v : Nat) : v < 10 → Digit (48 + v) v
  | upper (v : Nat) : v < 6 → Digit (65 + v) (10 + v)
  | lower (v : Nat) : v < 6 → Digit (97 + v) (10 + v)

/-- `s` equals the word up to the case of (ASCII) letters; the word is in lower case. -/
inductive SameWord : Str → Str → Prop where
  | nil : SameWord [] []
  | same (c : Nat) (s w : Str) : SameWord s w → SameWord (c :: s) (c :: w)
  | upper (v : Nat) (s w : Str) : v < 26 → SameWord s w → SameWord ((65 + v) :: s) ((97 + v) :: w)

/-- The names of the 16 colours of HTML 4, in lower case, with their values. -/
def htmlColors : List (String × Nat) :=
  [("black", 0), ("silver", 12632256), ("gray", 8421504), ("white", 16777215), ("maroon", 8388608), ("red", 16711680),
   ("purple", 8388736), ("fuchsia", 16711935), ("green", 32768), ("lime", 65280), ("olive", 8421376),
   ("yellow", 16776960), ("navy", 128), ("blue", 255), ("teal", 32896), ("aqua", 65535)]

def bytes (s : String) : Str := s.toList.map (·.toNat)

/-! ### hexadecimal colours -/

theorem upper_digit {c v : Nat} (h : Digit c v) : hexChar (toUpper c) = true ∧ digitVal? (toUpper c) = some v := by
  cases h with
  | dec v hv =>
    have e : toUpper (48 + v) = 48 + v := by unfold toUpper; rw [if_neg (by omega)]
    rw [e]
    refine ⟨by simp [hexChar]; omega, ?_⟩
    unfold digitVal?; rw [if_pos (by omega)]; congr 1; omega
  | upper v hv =>
    have e : toUpper (65 + v) = 65 + v := by unfold toUpper; rw [if_neg (by omega)]
    rw [e]
    refine ⟨by simp [hexChar]; omega, ?_⟩
    unfold digitVal?; rw [if_neg (by omega), if_pos (by omega)]; congr 1; omega
  | lower v hv =>
    have e : toUpper (97 + v) = 65 + v := by unfold toUpper; rw [if_pos (by omega)]; omega
    rw [e]
    refine ⟨by simp [hexChar]; omega, ?_⟩
    unfold digitVal?; rw [if_neg (by omega), if_pos (by omega)]; congr 1; omega

/-- C37. A colour of the form `#RRGGBB` is parsed to its value. -/
theorem C37_six (noColor : Nat) {a b c d e f : Nat} {va vb vc vd ve vf : Nat} (ha : Digit a va) (hb : Digit b vb)
    (hc : Digit c vc) (hd : Digit d vd) (he : Digit e ve) (hf : Digit f vf) :
    parseHexColor noColor [35, a, b, c, d, e, f] =
      va * 16 ^ 5 + vb * 16 ^ 4 + vc * 16 ^ 3 + vd * 16 ^ 2 + ve * 16 + vf := by
  obtain ⟨a1, a2⟩ := upper_digit ha
  obtain ⟨b1, b2⟩ := upper_digit hb
  obtain ⟨c1, c2⟩ := upper_digit hc
  obtain ⟨d1, d2⟩ := upper_digit hd
  obtain ⟨e1, e2⟩ := upper_digit he
  obtain ⟨f1, f2⟩ := upper_digit hf
  have h35 : toUpper 35 = 35 := rfl
  have hcopy : copy6 [toUpper a, toUpper b, toUpper c, toUpper d, toUpper e, toUpper f] =
      some [toUpper a, toUpper b, toUpper c, toUpper d, toUpper e, toUpper f] := by
    simp [copy6, a1, b1, c1, d1, e1, f1]
  simp only [parseHexColor, List.map_cons, List.map_nil, h35, List.length_cons, List.length_nil, and_self, if_true,
    hcopy, stoul0x]
  simp only [hexRun, a2, b2, c2, d2, e2, f2]
  omega

/-- C37. A colour of the form `#RGB` is parsed like `#RRGGBB`. -/
theorem C37_three (noColor : Nat) {a b c : Nat} {va vb vc : Nat} (ha : Digit a va) (hb : Digit b vb) (hc : Digit c vc) :
    parseHexColor noColor [35, a, b, c] = 17 * (va * 16 ^ 4 + vb * 16 ^ 2 + vc) := by
  obtain ⟨a1, a2⟩ := upper_digit ha
  obtain ⟨b1, b2⟩ := upper_digit hb
  obtain ⟨c1, c2⟩ := upper_digit hc
  have h35 : toUpper 35 = 35 := rfl
  have hcopy : copy3 [toUpper a, toUpper b, toUpper c] =
      some [toUpper a, toUpper a, toUpper b, toUpper b, toUpper c, toUpper c] := by
    simp [copy3, a1, b1, c1]
  simp only [parseHexColor, List.map_cons, List.map_nil, h35, List.length_cons, List.length_nil]
  rw [if_neg (by simp), if_pos (by simp), hcopy]
  simp only [stoul0x, hexRun, a2, b2, c2]
  omega

/-! ### names -/

theorem upper_same {s w : Str} (h : SameWord s w) (hw : ∀ c ∈ w, 97 ≤ c ∧ c ≤ 122) : s.map toUpper = w.map toUpper := by
  induction h with
  | nil => rfl
  | same c s w _ ih =>
    rw [List.map_cons, List.map_cons, ih (fun c hc => hw c (List.mem_cons_of_mem _ hc))]
  | upper v s w hv _ ih =>
    rw [List.map_cons, List.map_cons, ih (fun c hc => hw c (List.mem_cons_of_mem _ hc))]
    congr 1
    unfold toUpper
    rw [if_neg (by omega), if_pos (by omega)]
    omega

theorem htmlColors_parse : ∀ p ∈ htmlColors, (∀ c ∈ bytes p.1, 97 ≤ c ∧ c ≤ 122) ∧
    (bytes p.1).head? ≠ some 35 ∧ names.find? (fun q => q.1 = (bytes p.1).map toUpper) = some ((bytes p.1).map toUpper, p.2) ∧
    ((bytes p.1).map toUpper).head? ≠ some 35 ∧ bytes p.1 ≠ [] := by
  decide +kernel

/-- C37. The name of one of the 16 known colours, in any case, is parsed to its value. -/
theorem C37_names (noColor : Nat) {name : String} {v : Nat} (h : (name, v) ∈ htmlColors) {s : Str}
    (hs : SameWord s (bytes name)) : parseHexColor noColor s = v := by
  obtain ⟨h1, _, h3, h4, h5⟩ := htmlColors_parse _ h
  have hu := upper_same hs h1
  simp only at h3 h4 h5 hu
  unfold parseHexColor
  rw [hu]
  generalize hw : (bytes name).map toUpper = w at *
  cases w with
  | nil => exact absurd (List.map_eq_nil_iff.mp hw) h5
  | cons c r =>
    have hc : c ≠ 35 := by intro e; apply h4; rw [e]; rfl
    simp only
    rw [if_neg (fun h => hc h.2), if_neg (fun h => hc h.2), h3]

/-! ### anything else -/

theorem hexChar_iff (c : Nat) : hexChar (toUpper c) = true ↔ ∃ v, Digit c v := by
  constructor
  · intro h
    unfold toUpper at h
    split at h
    · simp [hexChar] at h
      refine ⟨10 + (c - 97), ?_⟩
      have := Digit.lower (c - 97) (by omega)
      rwa [show 97 + (c - 97) = c by omega] at this
    · simp [hexChar] at h
      rcases h with h | h
      · refine ⟨c - 48, ?_⟩
        have := Digit.dec (c - 48) (by omega)
        rwa [show 48 + (c - 48) = c by omega] at this
      · refine ⟨10 + (c - 65), ?_⟩
        have := Digit.upper (c - 65) (by omega)
        rwa [show 65 + (c - 65) = c by omega] at this
  · rintro ⟨v, h⟩; exact (upper_digit h).1

theorem copy6_none : ∀ s : Str, (∃ c ∈ s, ∀ v, ¬ Digit c v) → copy6 (s.map toUpper) = none := by
  intro s
  induction s with
  | nil => rintro ⟨c, hc, _⟩; cases hc
  | cons a s ih =>
    rintro ⟨c, hc, hv⟩
    rw [List.map_cons, copy6]
    rcases List.mem_cons.mp hc with rfl | hc
    · have : ¬ hexChar (toUpper c) = true := fun h => let ⟨v, hd⟩ := (hexChar_iff c).mp h; hv v hd
      rw [if_neg this]
    · split
      · rw [ih ⟨c, hc, hv⟩]; rfl
      · rfl

theorem copy3_none : ∀ s : Str, (∃ c ∈ s, ∀ v, ¬ Digit c v) → copy3 (s.map toUpper) = none := by
  intro s
  induction s with
  | nil => rintro ⟨c, hc, _⟩; cases hc
  | cons a s ih =>
    rintro ⟨c, hc, hv⟩
    rw [List.map_cons, copy3]
    rcases List.mem_cons.mp hc with rfl | hc
    · have : ¬ hexChar (toUpper c) = true := fun h => let ⟨v, hd⟩ := (hexChar_iff c).mp h; hv v hd
      rw [if_neg this]
    · split
      · rw [ih ⟨c, hc, hv⟩]; rfl
      · rfl

/-- C37, part of `anything else': `#` with three or six characters that are not all digits is
recognised as no colour. What is missing are all other strings, see `C37_negation`. -/
theorem C37_invalid_partial (noColor : Nat) (s : Str) (hl : s.length = 6 ∨ s.length = 3)
    (hs : ∃ c ∈ s, ∀ v, ¬ Digit c v) : parseHexColor noColor (35 :: s) = noColor := by
  have h35 : toUpper 35 = 35 := rfl
  simp only [parseHexColor, List.map_cons, h35, List.length_cons, List.length_map]
  rcases hl with hl | hl
  · rw [if_pos ⟨by rw [hl], trivial⟩, copy6_none s hs]
  · rw [if_neg (fun h => by rw [hl] at h; exact absurd h.1 (by decide)), if_pos ⟨by rw [hl], trivial⟩, copy3_none s hs]

/-- C37 is false for every other string: it is parsed as black, whatever the value that stands for
`no colour' is. -/
theorem C37_negation (noColor : Nat) (s : Str) (h7 : s.length = 7 → s.head? ≠ some 35)
    (h4 : s.length = 4 → s.head? ≠ some 35) (hn : ∀ p ∈ htmlColors, ¬ SameWord s (bytes p.1)) :
    parseHexColor noColor s = 0 := by
  have up35 : ∀ c, toUpper c = 35 → c = 35 := by
    intro c h; unfold toUpper at h; split at h <;> omega
  cases s with
  | nil => rfl
  | cons c r =>
    simp only [parseHexColor, List.map_cons, List.length_cons, List.length_map]
    rw [if_neg, if_neg]
    · cases hf : names.find? (fun p => p.1 = toUpper c :: r.map toUpper) with
      | none => rfl
      | some p =>
        exfalso
        have hp := List.mem_of_find?_eq_some hf
        have he := List.find?_some hf
        simp only [decide_eq_true_eq] at he
        have key : ∀ q ∈ names, ∃ n ∈ htmlColors, (bytes n.1).map toUpper = q.1 ∧ ∀ c ∈ bytes n.1, 97 ≤ c ∧ c ≤ 122 := by
          decide +kernel
        obtain ⟨n, hnm, hne, hlow⟩ := key p hp
        rw [he] at hne
        apply hn n hnm
        have gen : ∀ (s w : Str), (∀ c ∈ w, 97 ≤ c ∧ c ≤ 122) → w.map toUpper = s.map toUpper → SameWord s w := by
          intro s
          induction s with
          | nil =>
            intro w _ h
            cases w with
            | nil => exact .nil
            | cons => simp at h
          | cons a s ih =>
            intro w hw h
            cases w with
            | nil => simp at h
            | cons b w =>
              simp only [List.map_cons, List.cons.injEq] at h
              have hb := hw b List.mem_cons_self
              have hrec := ih w (fun c hc => hw c (List.mem_cons_of_mem _ hc)) h.2
              have h1 := h.1
              unfold toUpper at h1
              rw [if_pos (by omega)] at h1
              split at h1
              · have : a = b := by omega
                subst this; exact .same a s w hrec
              · have e := SameWord.upper (b - 97) s w (by omega) hrec
                rwa [show 65 + (b - 97) = a by omega, show 97 + (b - 97) = b by omega] at e
        exact gen (c :: r) _ hlow (by rw [hne, List.map_cons])
    · rintro ⟨hl, hc⟩
      exact h4 (by simp; omega) (by simp [up35 c hc])
    · rintro ⟨hl, hc⟩
      exact h7 (by simp; omega) (by simp [up35 c hc])

/-- The value of `NO_COLOR` is not a colour; then the colour of an attribute without `#` is black,
although the program means to read it as if it had one. -/
theorem C37_negation_hash (noColor : Nat) (h : noColor > 0xFFFFFF) :
    attrColor noColor (bytes "FF0000") = 0 ∧ attrColor noColor (bytes "crimson") = 0 := by
  have h1 : parseHexColor noColor (bytes "FF0000") = 0 := rfl
  have h2 : parseHexColor noColor (bytes "crimson") = 0 := rfl
  unfold attrColor
  rw [h1, h2]
  have : ¬ 0 = noColor := by omega
  simp [this]

/-- No attribute is ever recognised as `no colour': what is not a colour is black. -/
theorem C37_negation_attr (noColor : Nat) (h : noColor > 0xFFFFFF) (dec : Str) : attrColor noColor dec ≠ noColor := by
  unfold attrColor
  simp only
  split
  · rename_i hp
    have hform : (dec.length = 7 ∨ dec.length = 4) ∧ dec.head? = some 35 := by
      apply Classical.byContradiction
      intro hno
      by_cases hn : ∃ p ∈ htmlColors, SameWord dec (bytes p.1)
      · obtain ⟨p, hp1, hp2⟩ := hn
        rw [C37_names noColor hp1 hp2] at hp
        have : ∀ q ∈ htmlColors, q.2 ≤ 0xFFFFFF := by decide
        have := this p hp1
        omega
      · rw [C37_negation noColor dec (fun a b => hno ⟨.inl a, b⟩) (fun a b => hno ⟨.inr a, b⟩)
          (fun p hp hs => hn ⟨p, hp, hs⟩)] at hp
        omega
    have : parseHexColor noColor (35 :: dec) = 0 := by
      apply C37_negation
      · intro hl; simp at hl; omega
      · intro hl; simp at hl; omega
      · intro p hp hs
        have : ∀ q ∈ htmlColors, ∀ c ∈ bytes q.1, 97 ≤ c := by decide +kernel
        have hq := this p hp
        generalize hw : bytes p.1 = w at *
        generalize hs' : (35 :: dec : Str) = s' at *
        cases hs with
        | nil => cases hs'
        | same c s w h' =>
          cases hs'
          exact absurd (hq 35 List.mem_cons_self) (by omega)
        | upper v s w hv h' =>
          have := (List.cons.inj hs').1
          omega
    rw [this]; omega
  · assumption

-- hypotheses are met
example : parseHexColor 0x1000000 (bytes "#1aF003") = 0x1AF003 := by decide +kernel
example : Digit 102 15 := .lower 5 (by omega)
example : parseHexColor 0x1000000 (bytes "#3c9") = 0x33CC99 := by decide +kernel
example : SameWord (bytes "rEd") (bytes "red") := .same _ _ _ (.upper 4 _ _ (by omega) (.same _ _ _ .nil))
example : ("red", 0xFF0000) ∈ htmlColors := by decide
example : ∃ c ∈ bytes "12345g", ∀ v, ¬ Digit c v :=
  ⟨103, by decide, by intro v h; generalize e : (103 : Nat) = n at h; cases h <;> omega⟩

/-! ### text colour -/

/-- What is assumed of `sqrt(x / 3)` in `double`: not negative, its square is `x / 3` up to a tenth,
and it is exact if the root is an integer. -/
structure FltOk (f : Flt) : Prop where
  nonneg : ∀ x, 0 ≤ f.sqrtThird x
  upper : ∀ x : Nat, x ≤ 3 * 255 ^ 2 → 3 * (f.sqrtThird x * f.sqrtThird x) ≤ x + 3 / 10
  lower : ∀ x : Nat, x ≤ 3 * 255 ^ 2 → (x : Rat) - 3 / 10 ≤ 3 * (f.sqrtThird x * f.sqrtThird x)
  exact_ : ∀ n : Nat, n ≤ 255 → f.sqrtThird (3 * n ^ 2) = n

/-- Red, green and blue component. -/
def red (c : Nat) : Nat := c / 65536 % 256
def green (c : Nat) : Nat := c / 256 % 256
def blue (c : Nat) : Nat := c % 256

theorem comp (c k : Nat) : (c &&& (255 * 2 ^ k)) >>> k = c / 2 ^ k % 256 := by
  rw [Nat.shiftRight_and_distrib, Nat.shiftRight_eq_div_pow, Nat.shiftRight_eq_div_pow,
    Nat.mul_div_cancel _ (Nat.pow_pos (by omega))]
  exact Nat.and_two_pow_sub_one_eq_mod _ 8

theorem red_eq (c : UInt32) : ((c &&& 0x00FF0000) >>> 16).toNat = red c.toNat := by
  rw [UInt32.toNat_shiftRight, UInt32.toNat_and]
  exact comp c.toNat 16

theorem green_eq (c : UInt32) : ((c &&& 0x0000FF00) >>> 8).toNat = green c.toNat := by
  rw [UInt32.toNat_shiftRight, UInt32.toNat_and]
  exact comp c.toNat 8

theorem blue_eq (c : UInt32) : (c &&& 0x000000FF).toNat = blue c.toNat := by
  rw [UInt32.toNat_and]
  exact Nat.and_two_pow_sub_one_eq_mod _ 8

theorem sqrt_lt {f : Flt} (ok : FltOk f) {x : Nat} (hx : x ≤ 3 * 255 ^ 2) :
    f.sqrtThird x < 140 ↔ x < 3 * 140 ^ 2 := by
  have h0 := ok.nonneg x
  have h1 := ok.upper x hx
  have h2 := ok.lower x hx
  constructor
  · intro h
    apply Nat.lt_of_not_ge
    intro hge
    by_cases e : x = 3 * 140 ^ 2
    · have := ok.exact_ 140 (by omega)
      rw [e, this] at h
      exact absurd h (by decide)
    · have hx1 : 58801 ≤ x := by omega
      have hx2 : (58801 : Rat) ≤ (x : Rat) := by exact_mod_cast hx1
      have hs : f.sqrtThird x * f.sqrtThird x ≤ 140 * 140 :=
        Rat.le_trans (Rat.mul_le_mul_of_nonneg_left (Rat.le_of_lt h) h0)
          (Rat.mul_le_mul_of_nonneg_right (Rat.le_of_lt h) (by decide))
      grind
  · intro h
    apply Rat.not_le.mp
    intro hge
    have hx1 : x ≤ 58799 := by omega
    have hx2 : (x : Rat) ≤ 58799 := by exact_mod_cast hx1
    have hs : (140 : Rat) * 140 ≤ f.sqrtThird x * f.sqrtThird x :=
      Rat.le_trans (Rat.mul_le_mul_of_nonneg_left hge (by decide)) (Rat.mul_le_mul_of_nonneg_right hge h0)
    grind

/-- C38. The text colour is white if the root mean square of the components is below 140 (that is,
their sum of squares is below 3 · 140²), and black otherwise; it depends on the lower 24 bits only. -/
theorem C38_text_color (f : Flt) (ok : FltOk f) (c : UInt32) :
    (red c.toNat ^ 2 + green c.toNat ^ 2 + blue c.toNat ^ 2 < 3 * 140 ^ 2 → getTextColor f c = 0xFFFFFF) ∧
    (¬ red c.toNat ^ 2 + green c.toNat ^ 2 + blue c.toNat ^ 2 < 3 * 140 ^ 2 → getTextColor f c = 0) := by
  have hr : red c.toNat ≤ 255 := by unfold red; omega
  have hg : green c.toNat ≤ 255 := by unfold green; omega
  have hb : blue c.toNat ≤ 255 := by unfold blue; omega
  have hr2 := Nat.mul_le_mul hr hr
  have hg2 := Nat.mul_le_mul hg hg
  have hb2 := Nat.mul_le_mul hb hb
  have := sqrt_lt ok (x := red c.toNat * red c.toNat + green c.toNat * green c.toNat + blue c.toNat * blue c.toNat) (by omega)
  simp only [getTextColor, red_eq, green_eq, blue_eq, Nat.pow_two]
  constructor
  · intro h; rw [if_pos (this.mpr (by omega))]
  · intro h; rw [if_neg (fun h' => h (by have := this.mp h'; omega))]

theorem C38_lower_bits (f : Flt) (c d : UInt32) (h : c.toNat % 2 ^ 24 = d.toNat % 2 ^ 24) :
    getTextColor f c = getTextColor f d := by
  have h1 : red c.toNat = red d.toNat := by unfold red; omega
  have h2 : green c.toNat = green d.toNat := by unfold green; omega
  have h3 : blue c.toNat = blue d.toNat := by unfold blue; omega
  simp only [getTextColor, red_eq, green_eq, blue_eq, h1, h2, h3]

/-! Such a function exists: the root rounded down to four decimal places. -/

def root : Nat → Nat
  | 0 => 0
  | n + 1 => if 3 * (root n + 1) ^ 2 ≤ n + 1 then root n + 1 else root n

theorem root_ok (n : Nat) : 3 * root n ^ 2 ≤ n ∧ n < 3 * (root n + 1) ^ 2 := by
  induction n with
  | zero => simp [root]
  | succ n ih =>
    rw [root]
    split
    · refine ⟨by assumption, ?_⟩
      have := ih.2
      simp only [Nat.pow_two, Nat.mul_add, Nat.add_mul] at *
      omega
    · omega

def exFlt : Flt := ⟨fun x => (root (x * 10 ^ 8) : Rat) / 10000⟩

example : FltOk exFlt := by
  have sq : ∀ x : Nat, (exFlt.sqrtThird x * exFlt.sqrtThird x) * 100000000 =
      ((root (x * 10 ^ 8) * root (x * 10 ^ 8) : Nat) : Rat) := by
    intro x
    simp only [exFlt, Rat.natCast_mul]
    grind
  constructor
  · intro x
    have : (0 : Rat) ≤ (root (x * 10 ^ 8) : Rat) := by exact_mod_cast Nat.zero_le _
    simp only [exFlt]
    grind
  · intro x _
    have h := (root_ok (x * 10 ^ 8)).1
    have h' : (3 : Rat) * ((root (x * 10 ^ 8) * root (x * 10 ^ 8) : Nat) : Rat) ≤ (x : Rat) * 100000000 := by
      rw [Nat.pow_two] at h; exact_mod_cast h
    have := sq x
    grind
  · intro x hx
    have h := (root_ok (x * 10 ^ 8)).2
    have h0 := (root_ok (x * 10 ^ 8)).1
    have hk : root (x * 10 ^ 8) ≤ 2550000 := by
      apply Nat.le_of_not_lt
      intro hlt
      have := Nat.mul_le_mul (Nat.succ_le_of_lt hlt) (Nat.succ_le_of_lt hlt)
      simp only [Nat.pow_two] at *
      omega
    have h1 : x * 10 ^ 8 ≤ 3 * (root (x * 10 ^ 8) * root (x * 10 ^ 8)) + 15300003 := by
      simp only [Nat.pow_two, Nat.mul_add, Nat.add_mul] at *
      omega
    have h' : (x : Rat) * 100000000 ≤ 3 * ((root (x * 10 ^ 8) * root (x * 10 ^ 8) : Nat) : Rat) + 15300003 := by
      exact_mod_cast h1
    have := sq x
    grind
  · intro n _
    have h := root_ok (3 * n ^ 2 * 10 ^ 8)
    have : root (3 * n ^ 2 * 10 ^ 8) = n * 10000 := by
      have e : 3 * n ^ 2 * 10 ^ 8 = 3 * (n * 10000) ^ 2 := by simp only [Nat.mul_pow]; omega
      rw [e] at h ⊢
      have h1 := Nat.le_of_mul_le_mul_left h.1 (by omega)
      have h2 := Nat.lt_of_mul_lt_mul_left h.2
      have h1 := (Nat.pow_le_pow_iff_left (by omega)).mp h1
      have h2 := (Nat.pow_lt_pow_iff_left (by omega)).mp h2
      omega
    simp only [exFlt, this, Rat.natCast_mul]
    grind

end Verif.Color
