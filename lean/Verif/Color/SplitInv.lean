import Verif.Color.SplitLemmas

/-!
# Splitting routes by colour: the invariant of the loops
-/

namespace Verif.Color
open Verif.Shapes (Str)

variable {A B : Type}

/-- The reference `x` is stored in `m` for route `r` and colour `c`. -/
def In (m : Refs) (r c : Nat) (x : Ref) : Prop := ∃ cs ts, (r, cs) ∈ m ∧ (c, ts) ∈ cs ∧ x ∈ ts

/-- What is needed of the collected colours. -/
structure RefsOk (F0 : Feed A B) (m : Refs) : Prop where
  routes : (m.map (·.1)).Nodup
  valid : ∀ p ∈ m, p.1 < F0.routes.length
  live : ∀ r c t, In m r c (.live t) → F0.trips[t]? = some r
  dangling : ∀ r c R, In m r c .dangling → F0.routes[r]? = some R → c = R.color
  unique : ∀ r c c' t, In m r c (.live t) → In m r c' (.live t) → c = c'
  colors : ∀ p ∈ m, (p.2.map (·.1)).Nodup

/-- `orig` gives for each route the route of the original feed it stems from. -/
structure Base (F0 F : Feed A B) (orig : List Nat) : Prop where
  len : orig.length = F.routes.length
  pre : ∀ i, i < F0.routes.length → orig[i]? = some i
  rest : ∀ (j : Nat) R, F.routes[j]? = some R → ∃ o R0, orig[j]? = some o ∧ F0.routes[o]? = some R0 ∧ R.rest = R0.rest
  ids : (F.routes.map (·.id)).Nodup
  tlen : F.trips.length = F0.trips.length
  trips : ∀ (t : Nat) r, F0.trips[t]? = some r → ∃ j, F.trips[t]? = some j ∧ orig[j]? = some r
  flen : F.fares.length = F0.fares.length
  fares : ∀ (i : Nat) f0 f, F0.fares[i]? = some f0 → F.fares[i]? = some f →
    f0 <+: f ∧ (∀ x ∈ f, ∀ k, x.route = some k → k < F.routes.length) ∧
    f.filter (fun x => x.route = none) = f0.filter (fun x => x.route = none) ∧
    ∀ (j o : Nat), orig[j]? = some o →
      (f.filter (fun x => x.route = some j)).map (·.rest) = (f0.filter (fun x => x.route = some o)).map (·.rest)

/-- Trip `t` has a route of colour `c`, with the text colour that belongs to it if the colour is not
the one of the trip's original route. -/
def Colored (noColor : Nat) (tc : Nat → Nat) (F0 F : Feed A B) (t c : Nat) : Prop :=
  ∃ (j r : Nat) (R R0 : Route A), F.trips[t]? = some j ∧ F.routes[j]? = some R ∧ F0.trips[t]? = some r ∧
    F0.routes[r]? = some R0 ∧ R.color = c ∧ (c ≠ R0.color → c ≠ noColor → R.text = tc c)

/-- The invariant: `P r c t` are the entries that have been processed. -/
structure Inv (noColor : Nat) (tc : Nat → Nat) (m : Refs) (F0 F : Feed A B) (orig : List Nat)
    (P : Nat → Nat → Nat → Prop) (Q : Nat → Prop) : Prop extends Base F0 F orig where
  col : ∀ r c t, P r c t → Colored noColor tc F0 F t c
  same : ∀ r c t t', P r c t → P r c t' → F.trips[t]? = F.trips[t']?
  own : ∀ r c t R0, P r c t → F0.routes[r]? = some R0 → c = R0.color → F.trips[t]? = some r
  untouched : ∀ t, (∀ r c, ¬ P r c t) → F.trips[t]? = F0.trips[t]?
  old : ∀ (i : Nat) R0, F0.routes[i]? = some R0 → ∃ R, F.routes[i]? = some R ∧ (¬ Q i → R = R0) ∧
    (R = R0 ∨ ∃ c ts, (i, [(c, ts)]) ∈ m ∧
      R = { R0 with color := c, text := if c ≠ noColor then tc c else R0.text })

theorem lt_of_getElem? {α : Type} {l : List α} {i : Nat} {a : α} (h : l[i]? = some a) : i < l.length :=
  (List.getElem?_eq_some_iff.mp h).1

theorem nodup_snoc {α : Type} {l : List α} {a : α} (h : l.Nodup) (ha : a ∉ l) : (l ++ [a]).Nodup := by
  rw [List.nodup_append]
  refine ⟨h, List.nodup_cons.mpr ⟨List.not_mem_nil, List.nodup_nil⟩, ?_⟩
  intro x hx y hy
  rw [List.mem_singleton] at hy
  subst hy
  intro e; subst e; exact ha hx

/-- One new route. -/
theorem Base.split {F0 F : Feed A B} {orig : List Nat} (hb : Base F0 F orig) {r c tx : Nat} {R : Route A} {newId : Str}
    {ts : List Ref} {trips : List Nat} (hr : r < F0.routes.length) (hR : F.routes[r]? = some R)
    (hid : newId ∉ F.routes.map (·.id)) (htr : setTrips F.routes.length ts F.trips = some trips)
    (hlive : ∀ t, Ref.live t ∈ ts → F0.trips[t]? = some r) :
    Base F0 ⟨F.routes ++ [{ R with id := newId, color := c, text := tx }], trips,
      addRules F.routes.length (rulesOf r F.fares) F.fares⟩ (orig ++ [r]) := by
  have hlen := hb.len
  have hget : ∀ (j o : Nat), (orig ++ [r])[j]? = some o → orig[j]? = some o ∨ j = F.routes.length ∧ o = r := by
    intro j o h
    by_cases hj : j < orig.length
    · rw [List.getElem?_append_left hj] at h; exact .inl h
    · have := lt_of_getElem? h
      simp at this
      have e : j = orig.length := by omega
      subst e
      simp at h
      exact .inr ⟨hlen, h.symm⟩
  constructor
  · simp [hlen]
  · intro i hi
    have := hb.pre i hi
    rw [List.getElem?_append_left (lt_of_getElem? this)]; exact this
  · intro j R' hj
    simp only at hj
    by_cases hlt : j < F.routes.length
    · rw [List.getElem?_append_left hlt] at hj
      obtain ⟨o, R0, h1, h2, h3⟩ := hb.rest j R' hj
      exact ⟨o, R0, by rw [List.getElem?_append_left (by omega)]; exact h1, h2, h3⟩
    · have := lt_of_getElem? hj
      simp at this
      have e : j = F.routes.length := by omega
      subst e
      simp at hj
      obtain ⟨o, R0, h1, h2, h3⟩ := hb.rest r R hR
      rw [hb.pre r hr] at h1
      cases h1
      refine ⟨r, R0, by rw [← hlen]; simp, h2, ?_⟩
      rw [← hj]; exact h3
  · simp only [List.map_append, List.map_cons, List.map_nil]
    exact nodup_snoc hb.ids hid
  · rw [← hb.tlen]; exact setTrips_length _ _ _ htr
  · intro t r' ht
    obtain ⟨h1, h2⟩ := setTrips_get _ _ _ htr t
    by_cases hm : Ref.live t ∈ ts
    · have := hlive t hm
      rw [ht] at this
      cases this
      exact ⟨_, h1 hm, by rw [← hlen]; simp⟩
    · obtain ⟨j, hj, ho⟩ := hb.trips t r' ht
      exact ⟨j, (h2 hm).trans hj, by rw [List.getElem?_append_left (lt_of_getElem? ho)]; exact ho⟩
  · simp only [addRules_length]; exact hb.flen
  · intro i f0 f hf0 hf
    simp only [addRules_get] at hf
    cases hg : F.fares[i]? with
    | none => rw [hg] at hf; cases hf
    | some g =>
      rw [hg] at hf
      simp only [Option.map_some, Option.some.injEq] at hf
      obtain ⟨b1, b2, b3, b4⟩ := hb.fares i f0 g hf0 hg
      rw [rulesOf_filter r hg, List.map_map] at hf
      have hnew : ∀ x ∈ (g.filter (fun x => x.route = some r)).map
          ((fun a : Nat × Rule B => ({ a.2 with route := some F.routes.length } : Rule B)) ∘ fun x => (i, x)),
          x.route = some F.routes.length := by
        intro x hx
        obtain ⟨y, _, rfl⟩ := List.mem_map.mp hx
        rfl
      refine ⟨?_, ?_, ?_, ?_⟩
      · rw [← hf]; exact b1.trans (List.prefix_append _ _)
      · intro x hx k hk
        rw [← hf] at hx
        simp only [List.length_append, List.length_cons, List.length_nil]
        rcases List.mem_append.mp hx with hx | hx
        · have := b2 x hx k hk; omega
        · have := hnew x hx; rw [hk] at this; cases this; omega
      · rw [← hf, List.filter_append, b3]
        have : (((g.filter (fun x => x.route = some r)).map
          ((fun a : Nat × Rule B => ({ a.2 with route := some F.routes.length } : Rule B)) ∘ fun x => (i, x)))).filter
            (fun x => x.route = none) = [] := by
          rw [List.filter_eq_nil_iff]
          intro x hx
          rw [hnew x hx]; simp
        rw [this, List.append_nil]
      · intro j o hjo
        rw [← hf, List.filter_append, List.map_append]
        rcases hget j o hjo with h | ⟨rfl, rfl⟩
        · have hj : j ≠ F.routes.length := by have := lt_of_getElem? h; omega
          have : (((g.filter (fun x => x.route = some r)).map
            ((fun a : Nat × Rule B => ({ a.2 with route := some F.routes.length } : Rule B)) ∘ fun x => (i, x)))).filter
              (fun x => x.route = some j) = [] := by
            rw [List.filter_eq_nil_iff]
            intro x hx
            rw [hnew x hx]; simp; omega
          rw [this, List.map_nil, List.append_nil]
          exact b4 j o h
        · have h1 : g.filter (fun x => x.route = some F.routes.length) = [] := by
            rw [List.filter_eq_nil_iff]
            intro x hx
            simp only [decide_eq_true_eq]
            intro e
            exact Nat.lt_irrefl _ (b2 x hx F.routes.length e)
          have h2 : (((g.filter (fun x => x.route = some o)).map
            ((fun a : Nat × Rule B => ({ a.2 with route := some F.routes.length } : Rule B)) ∘ fun x => (i, x)))).filter
              (fun x => x.route = some F.routes.length) = (g.filter (fun x => x.route = some o)).map
            ((fun a : Nat × Rule B => ({ a.2 with route := some F.routes.length } : Rule B)) ∘ fun x => (i, x)) := by
            rw [List.filter_eq_self]
            intro x hx
            rw [hnew x hx]; simp
          rw [h1, h2, List.map_nil, List.nil_append, List.map_map]
          exact b4 o o (hb.pre o hr)

/-- The rules of an old route stay the same. -/
theorem rulesOf_split {F : Feed A B} {r c tx : Nat} {R : Route A} {newId : Str}
    {trips : List Nat} (hr : r < F.routes.length) :
    rulesOf r (Feed.fares (⟨F.routes ++ [{ R with id := newId, color := c, text := tx }], trips,
      addRules F.routes.length (rulesOf r F.fares) F.fares⟩ : Feed A B)) = rulesOf r F.fares := by
  apply rulesOf_congr
  · exact addRules_length _ _ _
  · intro i f f' hf hf'
    simp only [addRules_get, hf', Option.map_some, Option.some.injEq] at hf
    rw [← hf, List.filter_append]
    have : (((rulesOf r F.fares).filter (fun a => a.1 = i)).map fun a => ({ a.2 with route := some F.routes.length } : Rule B)).filter
        (fun x => x.route = some r) = [] := by
      rw [List.filter_eq_nil_iff]
      intro x hx
      obtain ⟨y, _, rfl⟩ := List.mem_map.mp hx
      simp; omega
    rw [this, List.append_nil]

/-- The loop over the colours of a route that is split. -/
theorem splitGo_inv {noColor : Nat} {tc : Nat → Nat} {m : Refs} {F0 : Feed A B} (ok : RefsOk F0 m) {r : Nat}
    {all : List (Nat × List Ref)} (hm : (r, all) ∈ m) {Q : Nat → Prop} {rules : List (Nat × Rule B)} :
    ∀ (cs done : List (Nat × List Ref)) (F : Feed A B) (orig : List Nat) (P : Nat → Nat → Nat → Prop),
    all = done ++ cs →
    (∀ r' c t, P r' c t → In m r' c (.live t)) →
    (∀ c t, P r c t → c ∈ done.map (·.1)) →
    Inv noColor tc m F0 F orig P Q →
    F.routes[r]? = F0.routes[r]? → rules = rulesOf r F.fares →
    ∃ F' orig', splitGo tc r rules cs F = some F' ∧
      Inv noColor tc m F0 F' orig' (fun r' c t => P r' c t ∨ r' = r ∧ ∃ ts, (c, ts) ∈ cs ∧ Ref.live t ∈ ts) Q := by
  intro cs
  induction cs with
  | nil =>
    intro done F orig P _ _ _ hi _ _
    refine ⟨F, orig, rfl, hi.toBase, ?_, ?_, ?_, ?_, hi.old⟩
    · rintro r' c t (h | ⟨_, ts, h, _⟩)
      · exact hi.col r' c t h
      · cases h
    · rintro r' c t t' (h | ⟨_, ts, h, _⟩) (h' | ⟨_, ts', h', _⟩)
      · exact hi.same r' c t t' h h'
      · cases h'
      · cases h
      · cases h
    · rintro r' c t R0 (h | ⟨_, ts, h, _⟩) h1 h2
      · exact hi.own r' c t R0 h h1 h2
      · cases h
    · intro t h; exact hi.untouched t (fun r' c hp => h r' c (.inl hp))
  | cons p cs ih =>
    obtain ⟨c, ts⟩ := p
    intro done F orig P hall hP hPd hi hr hrules
    have hrlt : r < F0.routes.length := ok.valid _ hm
    obtain ⟨R0, hR0⟩ : ∃ R0, F0.routes[r]? = some R0 := ⟨_, List.getElem?_eq_getElem hrlt⟩
    have hR : F.routes[r]? = some R0 := hr.trans hR0
    have hin : ∀ x ∈ ts, In m r c x := fun x hx => ⟨all, ts, hm, by rw [hall]; simp, hx⟩
    have hlive : ∀ t, Ref.live t ∈ ts → F0.trips[t]? = some r := fun t ht => ok.live r c t (hin _ ht)
    have hP' : ∀ r' c' t, (P r' c' t ∨ r' = r ∧ c' = c ∧ Ref.live t ∈ ts) → In m r' c' (.live t) := by
      rintro r' c' t (h | ⟨rfl, rfl, h⟩)
      · exact hP _ _ _ h
      · exact hin _ h
    have hcn : c ∉ done.map (·.1) := by
      have := ok.colors _ hm
      simp only [hall, List.map_append, List.map_cons, List.nodup_append] at this
      exact fun h => this.2.2 _ h _ List.mem_cons_self rfl
    have hPd' : ∀ c' t, (P r c' t ∨ r = r ∧ c' = c ∧ Ref.live t ∈ ts) → c' ∈ (done ++ [(c, ts)]).map (·.1) := by
      rintro c' t (h | ⟨_, rfl, _⟩)
      · rw [List.map_append]; exact List.mem_append_left _ (hPd c' t h)
      · simp
    have hPn : ∀ r2 c2 t, Ref.live t ∈ ts → ¬ P r2 c2 t := by
      intro r2 c2 t ht hp
      have h1 := hP _ _ _ hp
      have h2 := ok.live _ _ _ h1
      rw [hlive t ht] at h2
      cases h2
      rw [ok.unique _ _ _ _ h1 (hin _ ht)] at hp
      exact hcn (hPd _ _ hp)
    have hfin : ∀ {F' : Feed A B} {orig' : List Nat}, Inv noColor tc m F0 F' orig'
        (fun r' c' t => (P r' c' t ∨ r' = r ∧ c' = c ∧ Ref.live t ∈ ts) ∨
          r' = r ∧ ∃ ts', (c', ts') ∈ cs ∧ Ref.live t ∈ ts') Q →
        Inv noColor tc m F0 F' orig' (fun r' c' t => P r' c' t ∨ r' = r ∧ ∃ ts', (c', ts') ∈ (c, ts) :: cs ∧ Ref.live t ∈ ts') Q := by
      intro F' orig' hi'
      have e : (fun r' c' t => (P r' c' t ∨ r' = r ∧ c' = c ∧ Ref.live t ∈ ts) ∨
          r' = r ∧ ∃ ts', (c', ts') ∈ cs ∧ Ref.live t ∈ ts') =
          (fun r' c' t => P r' c' t ∨ r' = r ∧ ∃ ts', (c', ts') ∈ (c, ts) :: cs ∧ Ref.live t ∈ ts') := by
        funext r' c' t
        apply propext
        constructor
        · rintro ((h | ⟨rfl, rfl, h⟩) | ⟨rfl, ts', h, h'⟩)
          · exact .inl h
          · exact .inr ⟨rfl, ts, List.mem_cons_self, h⟩
          · exact .inr ⟨rfl, ts', List.mem_cons_of_mem _ h, h'⟩
        · rintro (h | ⟨rfl, ts', h, h'⟩)
          · exact .inl (.inl h)
          · rcases List.mem_cons.mp h with h | h
            · cases h; exact .inl (.inr ⟨rfl, rfl, h'⟩)
            · exact .inr ⟨rfl, ts', h, h'⟩
      rw [e] at hi'
      exact hi'
    simp only [splitGo, hR]
    by_cases hc : c = R0.color
    · rw [if_pos hc]
      have hi' : Inv noColor tc m F0 F orig (fun r' c' t => P r' c' t ∨ r' = r ∧ c' = c ∧ Ref.live t ∈ ts) Q := by
        have hstay : ∀ t, Ref.live t ∈ ts → F.trips[t]? = some r := fun t ht =>
          (hi.untouched t (fun r2 c2 => hPn r2 c2 t ht)).trans (hlive t ht)
        refine ⟨hi.toBase, ?_, ?_, ?_, ?_, hi.old⟩
        · rintro r' c' t (h | ⟨rfl, rfl, h⟩)
          · exact hi.col _ _ _ h
          · exact ⟨r', r', R0, R0, hstay t h, hR, hlive t h, hR0, hc.symm, fun hne => absurd hc hne⟩
        · rintro r' c' t t' (h | ⟨rfl, rfl, h⟩) (h' | ⟨e1, e2, h'⟩)
          · exact hi.same _ _ _ _ h h'
          · subst e1; subst e2; exact absurd (hPd _ _ h) hcn
          · exact absurd (hPd _ _ h') hcn
          · rw [hstay t h, hstay t' h']
        · rintro r' c' t R1 (h | ⟨rfl, rfl, h⟩) h1 h2
          · exact hi.own _ _ _ _ h h1 h2
          · exact hstay t h
        · intro t h
          exact hi.untouched t (fun r2 c2 hp => h r2 c2 (.inl hp))
      obtain ⟨F', orig', e, hi''⟩ := ih (done ++ [(c, ts)]) F orig _ (by rw [hall]; simp) hP' hPd' hi' hr hrules
      exact ⟨F', orig', e, hfin hi''⟩
    · rw [if_neg hc]
      obtain ⟨newId, hid, hidn⟩ := freeId_total (F.routes.map (·.id)) R0.id 1
      rw [List.length_map] at hid
      rw [hid]
      obtain ⟨trips, htr⟩ := setTrips_some (j := F.routes.length) ts F.trips (by
        intro x hx
        cases x with
        | live t => exact ⟨t, rfl, by rw [hi.tlen]; exact lt_of_getElem? (hlive t hx)⟩
        | dangling => exact absurd (ok.dangling r c R0 (hin _ hx) hR0) hc)
      simp only [htr]
      have hget := setTrips_get _ _ _ htr
      have hbase := hi.toBase.split (c := c) (tx := tc c) hrlt hR hidn htr hlive
      have hRlt := lt_of_getElem? hR
      rw [← hrules] at hbase
      have hi' : Inv noColor tc m F0 ⟨F.routes ++ [{ R0 with id := newId, color := c, text := tc c }], trips,
          addRules F.routes.length rules F.fares⟩ (orig ++ [r])
          (fun r' c' t => P r' c' t ∨ r' = r ∧ c' = c ∧ Ref.live t ∈ ts) Q := by
        have hnewcol : ∀ t, Ref.live t ∈ ts → Colored noColor tc F0 ⟨F.routes ++ [{ R0 with id := newId, color := c, text := tc c }], trips,
            addRules F.routes.length rules F.fares⟩ t c := by
          intro t ht
          exact ⟨F.routes.length, r, { R0 with id := newId, color := c, text := tc c }, R0, (hget t).1 ht, by simp,
            hlive t ht, hR0, rfl, fun _ _ => rfl⟩
        refine ⟨hbase, ?_, ?_, ?_, ?_, ?_⟩
        · rintro r' c' t (h | ⟨rfl, rfl, h⟩)
          · have ht : Ref.live t ∉ ts := fun ht => hPn _ _ _ ht h
            obtain ⟨j, r2, R, R2, a1, a2, a3, a4, a5, a6⟩ := hi.col _ _ _ h
            exact ⟨j, r2, R, R2, ((hget t).2 ht).trans a1, by
              simp only; rw [List.getElem?_append_left (lt_of_getElem? a2)]; exact a2, a3, a4, a5, a6⟩
          · exact hnewcol t h
        · rintro r' c' t t' (h | ⟨rfl, rfl, h⟩) (h' | ⟨e1, e2, h'⟩)
          · have ht : Ref.live t ∉ ts := fun ht => hPn _ _ _ ht h
            have ht' : Ref.live t' ∉ ts := fun ht => hPn _ _ _ ht h'
            exact ((hget t).2 ht).trans ((hi.same _ _ _ _ h h').trans ((hget t').2 ht').symm)
          · subst e1; subst e2; exact absurd (hPd _ _ h) hcn
          · exact absurd (hPd _ _ h') hcn
          · exact ((hget t).1 h).trans ((hget t').1 h').symm
        · rintro r' c' t R1 (h | ⟨rfl, rfl, h⟩) h1 h2
          · have ht : Ref.live t ∉ ts := fun ht => hPn _ _ _ ht h
            exact ((hget t).2 ht).trans (hi.own _ _ _ _ h h1 h2)
          · rw [hR0] at h1; cases h1; exact absurd h2 hc
        · intro t h
          exact ((hget t).2 (fun ht => h r c (.inr ⟨rfl, rfl, ht⟩))).trans
            (hi.untouched t (fun r2 c2 hp => h r2 c2 (.inl hp)))
        · intro i Ri hRi
          obtain ⟨R', a1, a2, a3⟩ := hi.old i Ri hRi
          exact ⟨R', by simp only; rw [List.getElem?_append_left (lt_of_getElem? a1)]; exact a1, a2, a3⟩
      obtain ⟨F', orig', e, hi''⟩ := ih (done ++ [(c, ts)]) _ (orig ++ [r]) _ (by rw [hall]; simp) hP' hPd' hi' (by
        simp only; rw [List.getElem?_append_left hRlt]; exact hr) (by
        have := rulesOf_split (F := F) (r := r) (c := c) (tx := tc c) (R := R0) (newId := newId)
          (trips := trips) hRlt
        rw [← hrules] at this
        exact this.symm)
      exact ⟨F', orig', e, hfin hi''⟩

/-- One route. -/
theorem updRoute_inv {noColor : Nat} {tc : Nat → Nat} {m : Refs} {F0 : Feed A B} (ok : RefsOk F0 m) {r : Nat}
    {cs : List (Nat × List Ref)} (hm : (r, cs) ∈ m) {done : List (Nat × List (Nat × List Ref))}
    (hsub : ∀ p ∈ done, p ∈ m) (hrd : r ∉ done.map (·.1)) {F : Feed A B} {orig : List Nat}
    (hi : Inv noColor tc m F0 F orig (fun r c t => In done r c (.live t)) (fun i => i ∈ done.map (·.1))) :
    ∃ F' orig', updRoute noColor tc r cs F = some F' ∧ Inv noColor tc m F0 F' orig'
      (fun r' c t => In (done ++ [(r, cs)]) r' c (.live t)) (fun i => i ∈ (done ++ [(r, cs)]).map (·.1)) := by
  have hrlt : r < F0.routes.length := ok.valid _ hm
  obtain ⟨R0, hR0⟩ : ∃ R0, F0.routes[r]? = some R0 := ⟨_, List.getElem?_eq_getElem hrlt⟩
  have hsubIn : ∀ r' c x, In done r' c x → In m r' c x := by
    rintro r' c x ⟨cs', ts, h1, h2, h3⟩
    exact ⟨cs', ts, hsub _ h1, h2, h3⟩
  have hinDone : ∀ r' c x, In done r' c x → r' ∈ done.map (·.1) := by
    rintro r' c x ⟨cs', ts, h1, _, _⟩
    exact List.mem_map.mpr ⟨_, h1, rfl⟩
  have hInApp : ∀ r' c x, In (done ++ [(r, cs)]) r' c x ↔ In done r' c x ∨ r' = r ∧ ∃ ts, (c, ts) ∈ cs ∧ x ∈ ts := by
    intro r' c x
    constructor
    · rintro ⟨cs', ts, h1, h2, h3⟩
      rcases List.mem_append.mp h1 with h1 | h1
      · exact .inl ⟨cs', ts, h1, h2, h3⟩
      · rw [List.mem_singleton] at h1; cases h1; exact .inr ⟨rfl, ts, h2, h3⟩
    · rintro (⟨cs', ts, h1, h2, h3⟩ | ⟨rfl, ts, h2, h3⟩)
      · exact ⟨cs', ts, List.mem_append_left _ h1, h2, h3⟩
      · exact ⟨cs, ts, List.mem_append_right _ (List.mem_singleton.mpr rfl), h2, h3⟩
  have hPeq : (fun r' c t => In (done ++ [(r, cs)]) r' c (.live t)) =
      (fun r' c t => In done r' c (.live t) ∨ r' = r ∧ ∃ ts, (c, ts) ∈ cs ∧ Ref.live t ∈ ts) := by
    funext r' c t; exact propext (hInApp _ _ _)
  have hRF : F.routes[r]? = some R0 := by
    obtain ⟨R, h1, h2, _⟩ := hi.old r R0 hR0
    rw [h1, h2 hrd]
  rw [hPeq]
  have hsplit : ∃ F' orig', splitGo tc r (rulesOf r F.fares) cs F = some F' ∧ Inv noColor tc m F0 F' orig'
      (fun r' c t => In done r' c (.live t) ∨ r' = r ∧ ∃ ts, (c, ts) ∈ cs ∧ Ref.live t ∈ ts)
      (fun i => i ∈ (done ++ [(r, cs)]).map (·.1)) := by
    obtain ⟨F', orig', h1, h2⟩ := splitGo_inv ok hm cs [] F orig _ rfl (fun r' c t h => hsubIn _ _ _ h)
      (fun c t h => absurd (hinDone _ _ _ h) hrd) hi
      (hRF.trans hR0.symm) rfl
    refine ⟨F', orig', h1, h2.toBase, h2.col, h2.same, h2.own, h2.untouched, ?_⟩
    intro i Ri hRi
    obtain ⟨R, a1, a2, a3⟩ := h2.old i Ri hRi
    refine ⟨R, a1, fun hn => a2 (fun hd => hn ?_), a3⟩
    rw [List.map_append]; exact List.mem_append_left _ hd
  unfold updRoute
  split
  · rename_i c ts
    simp only [hRF]
    refine ⟨_, orig, rfl, ?_⟩
    have hlive : ∀ t, Ref.live t ∈ ts → F0.trips[t]? = some r := fun t ht =>
      ok.live r c t ⟨_, ts, hm, List.mem_singleton.mpr rfl, ht⟩
    have hrF := lt_of_getElem? hRF
    have hstay : ∀ t, Ref.live t ∈ ts → F.trips[t]? = some r := fun t h' =>
      (hi.untouched t (fun r2 c2 hp => by
          have := ok.live _ _ _ (hsubIn _ _ _ hp)
          rw [hlive t h'] at this
          cases this
          exact hrd (hinDone _ _ _ hp))).trans (hlive t h')
    refine ⟨?_, ?_, ?_, ?_, ?_, ?_⟩
    · have hb := hi.toBase
      constructor
      · simp only [List.length_set]; exact hb.len
      · exact hb.pre
      · intro j R' hj
        simp only at hj
        by_cases e : r = j
        · subst e
          rw [List.getElem?_set_self hrF] at hj
          obtain ⟨o, R1, h1, h2, h3⟩ := hb.rest r R0 hRF
          cases hj
          exact ⟨o, R1, h1, h2, h3⟩
        · rw [List.getElem?_set_ne e] at hj
          exact hb.rest j R' hj
      · have : (F.routes.set r { R0 with color := c, text := if c ≠ noColor then tc c else R0.text }).map (·.id) =
            F.routes.map (·.id) := by
          apply List.ext_getElem?
          intro i
          rw [List.getElem?_map, List.getElem?_map]
          by_cases e : r = i
          · subst e; rw [List.getElem?_set_self hrF, hRF]; rfl
          · rw [List.getElem?_set_ne e]
        simp only
        rw [this]; exact hb.ids
      · exact hb.tlen
      · exact hb.trips
      · exact hb.flen
      · intro i f0 f h0 h
        obtain ⟨b1, b2, b3, b4⟩ := hb.fares i f0 f h0 h
        exact ⟨b1, by simp only [List.length_set]; exact b2, b3, b4⟩
    · rintro r' c' t (h | ⟨rfl, ts', h, h'⟩)
      · obtain ⟨j, r2, R, R2, a1, a2, a3, a4, a5, a6⟩ := hi.col _ _ _ h
        refine ⟨j, r2, R, R2, a1, ?_, a3, a4, a5, a6⟩
        have h1 := ok.live _ _ _ (hsubIn _ _ _ h)
        have hne : r' ≠ r := fun e => hrd (e ▸ hinDone _ _ _ h)
        obtain ⟨j', b1, b2⟩ := hi.trips t r' h1
        rw [a1] at b1
        cases b1
        have : r ≠ j := by
          intro e
          subst e
          rw [hi.pre r hrlt] at b2
          cases b2
          exact hne rfl
        simp only
        rw [List.getElem?_set_ne this]; exact a2
      · rw [List.mem_singleton] at h
        cases h
        exact ⟨r', r', _, R0, hstay t h', List.getElem?_set_self hrF, hlive t h', hR0, rfl, fun _ hn => by simp [hn]⟩
    · rintro r' c' t t' (h | ⟨rfl, ts1, h, h1⟩) (h' | ⟨e, ts2, h', h2⟩)
      · exact hi.same _ _ _ _ h h'
      · subst e; exact absurd (hinDone _ _ _ h) hrd
      · exact absurd (hinDone _ _ _ h') hrd
      · rw [List.mem_singleton] at h h'
        cases h; cases h'
        exact (hstay t h1).trans (hstay t' h2).symm
    · rintro r' c' t R1 (h | ⟨rfl, ts1, h, h1⟩) h2 h3
      · exact hi.own _ _ _ _ h h2 h3
      · rw [List.mem_singleton] at h
        cases h
        exact hstay t h1
    · intro t h
      exact hi.untouched t (fun r2 c2 hp => h r2 c2 (.inl hp))
    · intro i Ri hRi
      simp only
      by_cases e : r = i
      · subst e
        rw [hR0] at hRi
        cases hRi
        exact ⟨_, List.getElem?_set_self hrF, fun hn => absurd (by simp) hn, .inr ⟨c, ts, hm, rfl⟩⟩
      · obtain ⟨R, a1, a2, a3⟩ := hi.old i Ri hRi
        refine ⟨R, by rw [List.getElem?_set_ne e]; exact a1, fun hn => a2 (fun hd => hn ?_), a3⟩
        rw [List.map_append]; exact List.mem_append_left _ hd
  · exact hsplit

theorem update_inv {noColor : Nat} {tc : Nat → Nat} {all : Refs} {F0 : Feed A B} (ok : RefsOk F0 all) :
    ∀ (m done : Refs) (F : Feed A B) (orig : List Nat), all = done ++ m →
    Inv noColor tc all F0 F orig (fun r c t => In done r c (.live t)) (fun i => i ∈ done.map (·.1)) →
    ∃ F' orig', updateRouteColors noColor tc m F = some F' ∧
      Inv noColor tc all F0 F' orig' (fun r c t => In all r c (.live t)) (fun i => i ∈ all.map (·.1)) := by
  intro m
  induction m with
  | nil =>
    intro done F orig e hi
    rw [List.append_nil] at e
    subst e
    exact ⟨F, orig, rfl, hi⟩
  | cons p m ih =>
    obtain ⟨r, cs⟩ := p
    intro done F orig e hi
    have hnd := ok.routes
    rw [e, List.map_append, List.map_cons, List.nodup_append] at hnd
    obtain ⟨F', orig', h1, h2⟩ := updRoute_inv ok (r := r) (cs := cs) (by rw [e]; simp) (done := done)
      (fun p hp => by rw [e]; exact List.mem_append_left _ hp)
      (fun h => hnd.2.2 _ h _ List.mem_cons_self rfl) hi
    rw [updateRouteColors, h1]
    exact ih (done ++ [(r, cs)]) F' orig' (by rw [e]; simp) h2

/-- The invariant at the start. -/
theorem inv_init {noColor : Nat} {tc : Nat → Nat} {m : Refs} {F0 : Feed A B} (hids : (F0.routes.map (·.id)).Nodup)
    (htr : ∀ r ∈ F0.trips, r < F0.routes.length)
    (hf : ∀ f ∈ F0.fares, ∀ x ∈ f, ∀ k, x.route = some k → k < F0.routes.length) :
    Inv noColor tc m F0 F0 (List.range F0.routes.length) (fun r c t => In [] r c (.live t)) (fun i => i ∈ ([] : Refs).map (·.1)) := by
  have hno : ∀ r c x, ¬ In [] r c x := by rintro r c x ⟨cs, ts, h, _⟩; cases h
  refine ⟨⟨by simp, ?_, ?_, hids, rfl, ?_, rfl, ?_⟩, ?_, ?_, ?_, ?_, ?_⟩
  · intro i hi; simp [hi]
  · intro j R h
    exact ⟨j, R, by simp [lt_of_getElem? h], h, rfl⟩
  · intro t r h
    exact ⟨r, h, by simp [htr r (List.mem_of_getElem? h)]⟩
  · intro i f0 f h0 h
    rw [h0] at h; cases h
    refine ⟨List.prefix_refl _, hf f0 (List.mem_of_getElem? h0), rfl, ?_⟩
    intro j o h
    have hj := lt_of_getElem? h
    rw [List.length_range] at hj
    simp [hj] at h
    rw [h]
  · intro r c t h; exact absurd h (hno _ _ _)
  · intro r c t t' h; exact absurd h (hno _ _ _)
  · intro r c t R0 h; exact absurd h (hno _ _ _)
  · intro t _; rfl
  · intro i R0 h; exact ⟨R0, h, fun _ => rfl, .inl rfl⟩

end Verif.Color
