import Verif.Agree.Values

/-! # Parsing in PyRFLX finds the fields in the buffer -/

namespace Verif.Agree
open Verif Verif.Graph Verif.Types Verif.Bits Verif.Gen Verif.Ctx

variable {m : PyRFLX.Msg} {P : Pkg} {rest : Field → Bool} {b : Spark.Bytes} {lo hi : Int} {fv : Field → PyRFLX.FV} {p : List Field}
  {es : List Item} {M : List (Expr × Expr)} {rank : Field → Nat} {input : List Byte}

theorem SameField.congr {fv fv' : Field → PyRFLX.FV} {g : Field} {it : Item} (h : SameField m b lo fv g it) (hg : fv' g = fv g) :
    SameField m b lo fv' g it := by
  unfold SameField
  rw [hg]
  exact h

theorem Rep.congr {fv fv' : Field → PyRFLX.FV} {g : Field} {it : Item} (h : Rep m P b lo fv g it) (hg : fv' g = fv g) :
    Rep m P b lo fv' g it := ⟨h.same.congr hg, by rw [hg]; exact h.scalar⟩

theorem Inv.congr {fv fv' : Field → PyRFLX.FV} (I : Inv m P b lo fv p es) (hg : ∀ g ∈ p, fv' g = fv g) : Inv m P b lo fv' p es :=
  ⟨I.fields, fun it hit => by obtain ⟨g, h, R⟩ := I.rep it hit; exact ⟨g, h, R.congr (hg g h)⟩, I.mem⟩

theorem Inv.snoc {f : Field} {it : Item} (I : Inv m P b lo fv p es) (R : Rep m P b lo fv f it) (hf : f ∈ m.fields) :
    Inv m P b lo fv (p ++ [f]) (it :: es) where
  fields := by simp [I.fields, R.same.1]
  rep x hx := by
    rcases List.mem_cons.mp hx with rfl | hx
    · exact ⟨f, by simp, R⟩
    · obtain ⟨g, h, R'⟩ := I.rep x hx
      exact ⟨g, by simp [h], R'⟩
  mem g hg := by
    rcases List.mem_append.mp hg with hg | hg
    · exact I.mem g hg
    · rw [List.mem_singleton.mp hg]; exact hf

/-- What `set` leaves behind. -/
theorem set_new (hr : PyRFLX.Ranked m.links rank) {σ σ' : PyRFLX.State} {f : Field} {x : PyRFLX.Input} (h : m.set σ f x = (σ', none)) :
    ∃ fv2 ex value, m.newMapping fv2 = .ok σ'.mapping ∧ (∀ g, rank g ≤ rank f → σ'.fv g = fv2 g) ∧ (∀ g, g ≠ f → fv2 g = σ.fv g) ∧
      PyRFLX.assignValue (m.typeOf f) ex x = .ok value ∧ (fv2 f).value = some value := by
  obtain ⟨_, v, value, M, σ2, _, hval, hσ2, hM, _, hpreset⟩ := PyRFLX.set_ok h
  obtain ⟨h1, h2, _⟩ := PyRFLX.preset_frame hr hpreset
  refine ⟨σ2.fv, _, value, ?_, h1, ?_, hval, ?_⟩
  · rw [h2, hM, hσ2]
  · intro g hg
    rw [hσ2]
    simp [PyRFLX.State.upd, hg]
  · rw [hσ2]
    simp [PyRFLX.State.upd]

/-- The number of a scalar. -/
theorem scalar_number (W : WellFormed P) (S : SameMessage m P rest) {f : Field} (hf : f ∈ m.fields) {s : PyRFLX.Scalar} {imp : Bool}
    (ht : m.types f = .scalar s imp) (hfine : s.Fine) {n : Nat} (hn : s.size = .ok ⟨n, .b0⟩) {bits : List Bool} (hlen : bits.length = n)
    {ex : Option Num} {value : PyRFLX.Val} (h : PyRFLX.assignValue (.scalar s imp) ex (.bits ⟨bits⟩) = .ok value) :
    ∃ x t, value = .scalar x ∧ x.number = bitsToNat bits ∧ (low f, t) ∈ P.m.msg.types ∧ Scalar t ∧ t.size = .ok ⟨n, .b0⟩ ∧
      InType t (bitsToNat bits) ∧ ∀ txt k i, x = .enum txt k → ID.ofStr txt = .ok i →
        i.Lex ∧ low i ∉ m.fields.map low ∧ literalNumber P.m.msg i.key = k := by
  obtain ⟨t, htt⟩ := W.typed (low f) (by rw [S.fields]; exact List.mem_map_of_mem hf)
  have hst := S.types f hf t htt
  rw [ht] at hst
  obtain ⟨e, he, rfl⟩ := PyRFLX.map_ok (h : (s.parse imp ⟨bits⟩ true).map _ = _)
  obtain ⟨h1, h2⟩ := PyRFLX.elem_parse hfine hn imp ⟨bits⟩ (by simpa [Bitstring.len] using hlen)
  have hlegal : s.Legal (bitsToNat bits) := by
    refine Classical.byContradiction fun hno => ?_
    rw [h2 hno] at he
    cases he
  obtain ⟨e', he', _, hnum, _⟩ := h1 hlegal
  rw [he] at he'
  cases he'
  refine ⟨e.value, t, rfl, hnum, htt, ?_, ?_, ?_, ?_⟩
  · cases s <;> cases t <;> simp [SameType, Scalar] at hst ⊢
  · cases s <;> cases t <;> simp only [SameType] at hst
    · subst hst; exact hn
    · rw [← hst.1]; exact hn
  · cases s <;> cases t <;> simp only [SameType] at hst
    · subst hst; exact hlegal
    · obtain ⟨hst, hav⟩ := hst
      subst hst
      rcases hlegal with ⟨l, hl⟩ | h
      · exact .inr (List.mem_map.mpr ⟨_, hl, rfl⟩)
      · exact .inl h
  · intro txt k i hx hi
    cases s with
    | int u =>
      obtain ⟨v, _, rfl⟩ := PyRFLX.map_ok (he : (PyRFLX.IntegerValue.parse u _ _).map _ = _)
      cases hx
    | enum u =>
      cases t with
      | enum u' =>
        simp only [SameType] at hst
        obtain ⟨hst, hav⟩ := hst
        subst hst
        have hpos : bits ≠ [] := by
          rintro rfl
          obtain ⟨n', hn', hpos⟩ := PyRFLX.fine_size hfine
          rw [hn] at hn'
          simp only [Except.ok.injEq, Num.mk.injEq] at hn'
          simp at hlen
          omega
        obtain ⟨p1, p2⟩ := PyRFLX.C04_parse_partial u hfine.1 imp ⟨bits⟩ hpos
        obtain ⟨r, hr, rfl⟩ := PyRFLX.map_ok (he : (PyRFLX.EnumValue.parse u imp _).map _ = _)
        rcases hlegal with ⟨l, hl⟩ | h
        · rw [p1 l hl] at hr
          cases hr
          simp only [PyRFLX.SVal.enum.injEq] at hx
          obtain ⟨rfl, rfl⟩ := hx
          exact S.literal f hf u imp ht l _ hl i hi
        · rw [hav] at h; cases h
      | _ => simp [SameType] at hst

/-- The link whose size is used. -/
theorem size_link (w : PyRFLX.Well m rank rest) {σ : PyRFLX.State} (hv : PyRFLX.Values m fv) (hM : PyRFLX.Mapping m fv σ.mapping)
    {e f : Field} (hw : PyRFLX.Walk m σ.mapping INITIAL p e) (hn : m.nextField σ.mapping e = .ok (some f)) (hf : f ≠ FINAL)
    (hfresh : ∀ g, g ∉ p → g ≠ INITIAL → PyRFLX.Fresh (m.typeOf g) (σ.fv g)) (hc : (m.typeOf f).isComposite = true) {n : Num}
    (h : m.getSize σ f = .ok (some n)) :
    ∃ l ∈ m.links, l.source = e ∧ l.target = f ∧ m.holds σ.mapping l.condition = .ok true ∧
      ∃ r, m.simplifiedIn σ.mapping l.size = .ok r ∧ asNum r = some n := by
  have hrk := PyRFLX.next_rank' w.ranked hn hf
  have hls : m.linkSize σ (incoming m.links f) = .ok (some n) := by
    unfold PyRFLX.Msg.getSize at h
    split at h
    · rename_i ht
      rw [ht] at hc
      simp [PyRFLX.FType.isComposite] at hc
    · exact h
  have key : ∀ ls : List Link, (∀ l ∈ ls, l ∈ incoming m.links f) → m.linkSize σ ls = .ok (some n) →
      ∃ l ∈ m.links, l.source = e ∧ l.target = f ∧ m.holds σ.mapping l.condition = .ok true ∧
        ∃ r, m.simplifiedIn σ.mapping l.size = .ok r ∧ asNum r = some n := by
    intro ls
    induction ls with
    | nil => intro _ h; cases h
    | cons l ls ih =>
      intro hl h
      obtain ⟨hl1, hl2⟩ := PyRFLX.mem_incoming (hl l (by simp))
      have hl3 := fun l' h' => hl l' (List.mem_cons_of_mem _ h')
      obtain ⟨b, hb, h⟩ := PyRFLX.bind_ok (h : (PyRFLX.FV.isSet _ _).bind _ = _)
      split at h
      · rename_i hb'
        have hbt : b = true := by simp at hb'; exact hb'.1
        subst hbt
        obtain ⟨c, hcc, h⟩ := PyRFLX.bind_ok h
        cases c with
        | false => exact ih hl3 h
        | true =>
          obtain ⟨r, hr, hrn⟩ := PyRFLX.map_ok h
          have hsrc : l.source ∈ INITIAL :: p := by
            refine Classical.byContradiction fun hnot => ?_
            simp only [List.mem_cons, not_or] at hnot
            have := (hfresh l.source hnot.2 hnot.1).not_set
            rw [this] at hb
            cases hb
          have hle : l.source = e := by
            rcases hw.succ _ hsrc with h | ⟨c, hc', hgc⟩
            · exact h
            · obtain ⟨l2, hl2', hs2, ht2, hh2⟩ := w.next_holds hgc
              have hfc := w.exclusive fv _ hv hM l hl1 l2 hl2' hs2.symm hcc hh2
              rw [hl2, ht2] at hfc
              have := (hw.rank_le w.ranked).2 c hc'
              rw [hfc] at hrk
              omega
          exact ⟨l, hl1, hle, hl2, hcc, r, hr, hrn⟩
      · exact ih hl3 h
  exact key _ (fun _ h => h) hls

/-- Fields of composite types have composite types in generated code. -/
theorem composite_type (W : WellFormed P) (S : SameMessage m P rest) {f : Field} (hf : f ∈ m.fields) (hc : (m.types f).isComposite = true) :
    ∃ t, (low f, t) ∈ P.m.msg.types ∧ ¬ Scalar t := by
  obtain ⟨t, htt⟩ := W.typed (low f) (by rw [S.fields]; exact List.mem_map_of_mem hf)
  have hst := S.types f hf t htt
  refine ⟨t, htt, ?_⟩
  cases hm : m.types f <;> rw [hm] at hst hc <;> cases t <;> simp [SameType, Scalar, PyRFLX.FType.isComposite] at hst hc ⊢

theorem low_final (W : WellFormed P) (S : SameMessage m P rest) {f : Field} (hf : f ∈ m.fields) : low f ≠ FINAL := by
  intro h
  refine W.final ?_
  rw [← h, S.fields]
  exact List.mem_map_of_mem hf

theorem valBits_scalar {t : PyRFLX.FType} {x : PyRFLX.SVal} {r : Bitstring} (h : PyRFLX.valBits t (.scalar x) = .ok r) :
    t.isComposite = false := by
  cases t <;> simp [PyRFLX.valBits, PyRFLX.FType.isComposite] at h ⊢

/-- The next field, if its size is known. -/
theorem step_sized (w : PyRFLX.Well m rank rest) (W : WellFormed P) (S : SameMessage m P rest) (hH : Holds b lo hi input)
    {σ σ' : PyRFLX.State} {e f : Field} {last cur : Nat} (c : PyRFLX.Core m rank rest (input.flatMap Spec.byteBits) σ fv p e last cur)
    (I : Inv m P b lo fv p es) (F : Follows P.m.msg b lo hi es (low e) (lo + cur)) (hn : m.nextField σ.mapping e = .ok (some f))
    (hf : f ≠ FINAL) (hr : rest f = false) {n : Num} (hs : m.getSize σ f = .ok (some n)) (hn0 : 0 ≤ n.v)
    (hfits : PyRFLX.Fits (m.typeOf f) n.v.toNat) (hlen : cur + n.v.toNat ≤ (input.flatMap Spec.byteBits).length)
    (h : m.set σ f (.bits ⟨((input.flatMap Spec.byteBits).drop cur).take n.v.toNat⟩) = (σ', none)) {fv' : Field → PyRFLX.FV}
    (c' : PyRFLX.Core m rank rest (input.flatMap Spec.byteBits) σ' fv' (p ++ [f]) f cur (cur + n.v.toNat)) :
    ∃ it, Follows P.m.msg b lo hi (it :: es) (low f) (lo + (cur + n.v.toNat : Nat)) ∧ Inv m P b lo fv' (p ++ [f]) (it :: es) := by
  have hlt := PyRFLX.next_rank' w.ranked hn hf
  have hpr := fun g hg => ((c.walk.rank_le w.ranked).2 g hg).2
  have hfi : f ≠ INITIAL := by rintro rfl; have := (c.walk.rank_le w.ranked).1; omega
  have htf : m.typeOf f = m.types f := by simp [PyRFLX.Msg.typeOf, hfi]
  obtain ⟨l1, hl1, hl1s, hl1t, hl1h⟩ := w.next_holds hn
  have hff : f ∈ m.fields := by
    rcases (w.links l1 hl1).2 with h | h
    · exact absurd (hl1t.symm.trans h) hf
    · rw [← hl1t]; exact h
  obtain ⟨fv2, ex, value, _, hfv1, hfv2, hval, hvalue⟩ := set_new w.ranked h
  have hfvf : fv' f = fv2 f := by rw [c'.agree f (Nat.le_refl _), hfv1 f (Nat.le_refl _)]
  have hfvp : ∀ g ∈ p, fv' g = fv g := by
    intro g hg
    have h1 := hpr g hg
    rw [c'.agree g (by omega), hfv1 g (by omega), hfv2 g (by rintro rfl; omega), c.agree g h1]
  have hM' := PyRFLX.mapping_of c.mapping
  -- position, size and bits of the field
  obtain ⟨a, k, hat⟩ := c'.placed.mem f (by simp)
  obtain ⟨x', y', hx', hy', hx'v, hxy⟩ := c'.pos
  obtain ⟨x, y, v, h1, h2, h3, h4, h5, h6, h7⟩ := hat
  obtain rfl : x' = x := by rw [hx'] at h1; simpa using h1
  obtain rfl : y' = y := by rw [hy'] at h3; simpa using h3
  have ha : a = cur := by omega
  have hk : k = n.v.toNat := by omega
  subst ha hk
  have hvv : v = value := by
    rw [hfv1 f (Nat.le_refl _), hvalue] at h5
    simpa using h5.symm
  subst hvv
  obtain ⟨hslen, hsbits⟩ := hH.slice hlen
  have hBl : ((input.flatMap Spec.byteBits).length : Int) = 8 * input.length := by
    rw [length_flatMap_byteBits]
    omega
  have hbound : lo + a + n.v - 1 ≤ hi := by rw [hH.1]; omega
  have hfirst : (fv' f).first = some x' := by rw [c'.agree f (Nat.le_refl _)]; exact hx'
  have hsize : (fv' f).size (m.typeOf f) = .ok (some y') := by rw [c'.agree f (Nat.le_refl _)]; exact hy'
  have hvf : (fv' f).value = some v := by rw [c'.agree f (Nat.le_refl _)]; exact h5
  have hsame : ∀ value : Int, (∀ z, v = .scalar z → value = z.number) →
      SameField m b lo fv' f ⟨low f, lo + a, lo + a + n.v - 1, value⟩ := by
    intro value hz
    refine ⟨rfl, x', y', v, _, hfirst, hsize, hvf, ?_, ?_, by omega, h6, by rw [hslen]; omega, hsbits, hz⟩
    · simp only; omega
    · simp only; omega
  have hcond := holds_true (hi := hi) W S c.initial hM' I hl1 (condition_known w S c.walk hl1 hl1s) hl1h
  have hpos : lo + (a + n.v.toNat : Nat) = lo + a + n.v := by omega
  cases hc : (m.types f).isComposite with
  | false =>
    obtain ⟨s, imp, hsc⟩ : ∃ s imp, m.types f = .scalar s imp := by
      cases hm : m.types f <;> rw [hm] at hc <;> simp [PyRFLX.FType.isComposite] at hc
      exact ⟨_, _, rfl⟩
    rw [htf, hsc] at hfits
    rw [htf, hsc] at hval
    obtain ⟨z, t, rfl, hz1, ht1, ht2, ht3, ht4, ht5⟩ := scalar_number W S hff hsc hfits.1 hfits.2 hslen hval
    rw [bitsToNat_bitsAt hsbits, hslen] at hz1 ht4
    refine ⟨⟨low f, lo + a, lo + a + n.v - 1, bitsAt b (lo + a) n.v.toNat⟩, ?_, (I.congr hfvp).snoc ⟨hsame _ ?_, ?_⟩ hff⟩
    · have := Follows.scalar (l := lowLink l1) (t := t) F (by rw [S.links]; exact List.mem_map_of_mem hl1) (by simp [lowLink, hl1s])
        (by simp only [lowLink, hl1t]; exact low_final W S hff) hcond (by simp only [lowLink, hl1t]; exact ht1) ht2 ht3
        (by simp only; omega) (by simp only [Int.toNat_natCast]; exact ht4)
      simp only [lowLink, hl1t, Int.toNat_natCast] at this
      rw [Int.toNat_of_nonneg hn0] at this
      rw [hpos]
      exact this
    · intro z' hz'
      cases hz'
      exact hz1.symm
    · intro s' imp' _
      exact ⟨z, hvf, hz1.symm, ht5⟩
  | true =>
    obtain ⟨l, hl, hls, hltt, hlh, r, hr1, hr2⟩ := size_link w c.valuesM c.mapping c.walk hn hf c.fresh (by rw [htf]; exact hc) hs
    obtain ⟨t, ht1, ht2⟩ := composite_type W S hff hc
    have hcl := holds_true (hi := hi) W S c.initial hM' I hl (condition_known w S c.walk hl hls) hlh
    have hsz := size_value (hi := hi) W S c.initial hM' I hl (by rw [hltt]; exact ht1) ht2
      (size_known w S c.walk hl hls (by rw [hltt]; exact hff) (by rw [hltt]; exact hc) (by rw [hltt]; exact hr)) hr1 hr2
    refine ⟨⟨low f, lo + a, lo + a + n.v - 1, 0⟩, ?_, (I.congr hfvp).snoc ⟨hsame _ ?_, ?_⟩ hff⟩
    · have := Follows.composite (l := lowLink l) (t := t) F (by rw [S.links]; exact List.mem_map_of_mem hl) (by simp [lowLink, hls])
        (by simp only [lowLink, hltt]; exact low_final W S hff) hcl (by simp only [lowLink, hltt]; exact ht1) ht2 hsz hn0
        (by omega)
      simp only [lowLink, hltt] at this
      rw [hpos]
      exact this
    · intro z hz
      subst hz
      have := valBits_scalar h6
      rw [htf, hc] at this
      cases this
    · intro s imp ht
      rw [htf] at ht
      rw [ht] at hc
      simp [PyRFLX.FType.isComposite] at hc

/-- The next field, if it extends to the end. -/
theorem step_rest (w : PyRFLX.Well m rank rest) (W : WellFormed P) (S : SameMessage m P rest) (hH : Holds b lo hi input)
    (hR : RestOfBuffer m P rest b lo hi) {σ σ' : PyRFLX.State} {e f : Field} {last cur u v : Nat}
    (c : PyRFLX.Core m rank rest (input.flatMap Spec.byteBits) σ fv p e last cur)
    (I : Inv m P b lo fv p es) (F : Follows P.m.msg b lo hi es (low e) (lo + cur)) (hn : m.nextField σ.mapping e = .ok (some f))
    (hf : f ≠ FINAL) (hr : rest f = true) (h : m.parseRest σ f last cur ⟨input.flatMap Spec.byteBits⟩ = .ok (σ', u, v))
    (hat : PyRFLX.AtEnd m σ' (input.flatMap Spec.byteBits) f cur) :
    ∃ it fv' pos, Follows P.m.msg b lo hi (it :: es) (low f) pos ∧ Inv m P b lo fv' (p ++ [f]) (it :: es) ∧
      m.newMapping fv' = .ok σ'.mapping ∧ ∀ g ∈ p ++ [f], σ'.fv g = fv' g := by
  have hlt := PyRFLX.next_rank' w.ranked hn hf
  have hpr := fun g hg => ((c.walk.rank_le w.ranked).2 g hg).2
  have hfi : f ≠ INITIAL := by rintro rfl; have := (c.walk.rank_le w.ranked).1; omega
  have htf : m.typeOf f = m.types f := by simp [PyRFLX.Msg.typeOf, hfi]
  obtain ⟨l, hl, hls, hlt', hlh⟩ := w.next_holds hn
  have hff : f ∈ m.fields := by
    rcases (w.links l hl).2 with h | h
    · exact absurd (hlt'.symm.trans h) hf
    · rw [← hlt']; exact h
  obtain ⟨pos, _, hq⟩ := PyRFLX.bind_ok (h : (m.currentPos σ f last cur).bind _ = _)
  obtain ⟨first, _, hq⟩ := PyRFLX.bind_ok hq
  cases first with
  | none => cases hq
  | some first =>
  obtain ⟨sl, _, hq⟩ := PyRFLX.bind_ok hq
  obtain ⟨σ'', hset, hσ⟩ := PyRFLX.map_ok hq
  simp only [Prod.mk.injEq] at hσ
  obtain ⟨rfl, -, -⟩ := hσ
  obtain ⟨fv2, ex, value, hM2, hfv1, hfv2, _, _⟩ := set_new w.ranked (PyRFLX.set!_ok hset)
  have hfvp : ∀ g ∈ p, fv2 g = fv g := by
    intro g hg
    have h1 := hpr g hg
    have hgf : g ≠ f := by rintro rfl; omega
    rw [hfv2 g hgf, c.agree g h1]
    simp [PyRFLX.State.upd, hgf]
  have hcur := (c.placed.le (Nat.zero_le _)).2
  have hBl : ((input.flatMap Spec.byteBits).length : Int) = 8 * input.length := by
    rw [length_flatMap_byteBits]
    omega
  obtain ⟨hsz, hdvd⟩ := hR l hl (by rw [hlt']; exact hr) es _ (by rw [hls]; exact F)
  have hN : hi - (lo + cur) + 1 = 8 * input.length - cur := by rw [hH.1]; omega
  rw [hN] at hsz hdvd
  obtain ⟨x, h1, h2, h3, h4⟩ := hat
  have hc : (m.types f).isComposite = true := by rw [← htf, h3]; rfl
  obtain ⟨t, ht1, ht2⟩ := composite_type W S hff hc
  have hcond := holds_true (hi := hi) W S c.initial (PyRFLX.mapping_of c.mapping) I hl (condition_known w S c.walk hl hls) hlh
  have hdrop : (input.flatMap Spec.byteBits).drop cur = (input.drop (cur / 8)).flatMap Spec.byteBits := by
    have : cur = 8 * (cur / 8) := by omega
    rw [this, PyRFLX.drop_byteBits]
    congr 2
    omega
  have hval : (fv2 f).value = some (.bytes (input.drop (cur / 8))) := by
    rw [← hfv1 f (Nat.le_refl _), h4, hdrop, PyRFLX.toBytes_byteBits]
  obtain ⟨hslen, hsbits⟩ := hH.slice (a := cur) (n := (input.flatMap Spec.byteBits).length - cur) (by omega)
  have htake : ((input.flatMap Spec.byteBits).drop cur).take ((input.flatMap Spec.byteBits).length - cur) =
      (input.drop (cur / 8)).flatMap Spec.byteBits := by
    rw [List.take_of_length_le (by simp), hdrop]
  refine ⟨⟨low f, lo + cur, lo + cur + (8 * input.length - cur) - 1, 0⟩, fv2, lo + cur + (8 * input.length - cur), ?_,
    (I.congr hfvp).snoc ⟨⟨rfl, x, ⟨((input.drop (cur / 8)).length * 8 : Nat), .b0⟩, _, (input.drop (cur / 8)).flatMap Spec.byteBits, ?_, ?_, hval, ?_, ?_, ?_, ?_, ?_, ?_, ?_⟩, ?_⟩ hff, hM2, ?_⟩
  · have := Follows.composite (l := lowLink l) (t := t) F (by rw [S.links]; exact List.mem_map_of_mem hl) (by simp [lowLink, hls])
      (by simp only [lowLink, hlt']; exact low_final W S hff) hcond (by simp only [lowLink, hlt']; exact ht1) ht2 hsz (by omega)
      (by omega)
    simp only [lowLink, hlt'] at this
    exact this
  · rw [← hfv1 f (Nat.le_refl _)]; exact h1
  · rw [h3]
    simp [PyRFLX.FV.size, hval]
  · simp only; omega
  · simp only [List.length_drop]; omega
  · simp only; omega
  · rw [h3, PyRFLX.opaque_bits]
  · rw [length_flatMap_byteBits]; simp only [Int.toNat_natCast]
  · intro i hi
    have := hsbits i (by rw [htake]; exact hi)
    simp only [htake] at this
    exact this
  · intro z hz; cases hz
  · intro s imp ht
    rw [h3] at ht
    cases ht
  · intro g hg
    rcases List.mem_append.mp hg with hg | hg
    · have := hpr g hg
      exact hfv1 g (by omega)
    · rw [List.mem_singleton.mp hg]; exact hfv1 f (Nat.le_refl _)

/-- The message that PyRFLX has found. -/
structure Found (m : PyRFLX.Msg) (P : Pkg) (b : Spark.Bytes) (lo hi : Int) (σ : PyRFLX.State) (p : List Field) (e : Field) (es : List Item) :
    Prop where
  walk : PyRFLX.Walk m σ.mapping INITIAL p e
  final : m.nextField σ.mapping e = .ok (some FINAL)
  message : IsMessage P.m.msg b lo hi es
  fields : es.map (·.f) = (p.map low).reverse
  mem : ∀ g ∈ p, g ∈ m.fields
  same : ∀ it ∈ es, ∃ f ∈ p, SameField m b lo σ.fv f it

/-- The end of the message. -/
theorem found (w : PyRFLX.Well m rank rest) (W : WellFormed P) (S : SameMessage m P rest) {σ : PyRFLX.State} {e : Field}
    (hM : p ≠ [] → m.newMapping fv = .ok σ.mapping) (hM' : PyRFLX.MappingOf m fv σ.mapping) (hw : PyRFLX.Walk m σ.mapping INITIAL p e)
    (I : Inv m P b lo fv p es) {pos : Int} (F : Follows P.m.msg b lo hi es (low e) pos) (hn : m.nextField σ.mapping e = .ok (some FINAL))
    (hfv : ∀ g ∈ p, σ.fv g = fv g) : Found m P b lo hi σ p e es where
  walk := hw
  final := hn
  message := by
    obtain ⟨l, hl, hls, hlt, hlh⟩ := w.next_holds hn
    have := holds_true (hi := hi) W S hM hM' I hl (condition_known w S hw hl hls) hlh
    exact ⟨low e, pos, lowLink l, F, by rw [S.links]; exact List.mem_map_of_mem hl, by simp [lowLink, hls],
      by simp only [lowLink, hlt]; decide, this⟩
  fields := I.fields
  mem := I.mem
  same it hit := by
    obtain ⟨g, hg, R⟩ := I.rep it hit
    exact ⟨g, hg, R.same.congr (hfv g hg)⟩

/-- The loop of `parse` finds a message in the buffer. -/
theorem loop_found (w : PyRFLX.Well m rank rest) (W : WellFormed P) (S : SameMessage m P rest) (hH : Holds b lo hi input)
    (hR : RestOfBuffer m P rest b lo hi) : ∀ (k : Nat) (σ : PyRFLX.State) (nxt : Option Field) (fv : Field → PyRFLX.FV)
    (p : List Field) (e : Field) (last cur : Nat) (σ' : PyRFLX.State) (es : List Item),
    PyRFLX.Core m rank rest (input.flatMap Spec.byteBits) σ fv p e last cur → Inv m P b lo fv p es →
    Follows P.m.msg b lo hi es (low e) (lo + cur) →
    m.nextField σ.mapping e = .ok nxt → (∀ f, nxt = some f → f ≠ FINAL → PyRFLX.Acc m rank σ p f cur) →
    m.parseLoop ⟨input.flatMap Spec.byteBits⟩ k σ nxt last cur = .ok σ' → ∃ p e es, Found m P b lo hi σ' p e es := by
  intro k
  induction k with
  | zero =>
    intro σ nxt fv p e last cur σ' es c I F hn ha h
    cases nxt <;> simp [PyRFLX.Msg.parseLoop] at h
  | succ k ih =>
    intro σ nxt fv p e last cur σ' es c I F hn ha h
    cases nxt with
    | none => simp [PyRFLX.Msg.parseLoop] at h
    | some f =>
      unfold PyRFLX.Msg.parseLoop at h
      split at h
      · rename_i hfin
        simp only [Except.ok.injEq] at h
        subst h
        exact ⟨p, e, es, found w W S c.initial (PyRFLX.mapping_of c.mapping) c.walk I F (by rw [← hfin]; exact hn)
          fun g hg => (c.agree g ((c.walk.rank_le w.ranked).2 g hg).2).symm⟩
      rename_i hf
      have a := ha f rfl hf
      have hlt := PyRFLX.next_rank' w.ranked hn hf
      have hpr := fun g hg => ((c.walk.rank_le w.ranked).2 g hg).2
      have hfp : f ∉ p := fun hfp => by have := hpr f hfp; omega
      have hfi : f ≠ INITIAL := by rintro rfl; have := (c.walk.rank_le w.ranked).1; omega
      obtain ⟨size, hsize, h⟩ := PyRFLX.bind_ok h
      obtain ⟨r, hr, h⟩ := PyRFLX.bind_ok h
      obtain ⟨nxt', hnxt', h⟩ := PyRFLX.bind_ok h
      cases hrf : rest f with
      | true =>
        have hno : size = none := by
          refine w.rest_size c.valuesM ?_ hrf hsize
          rcases c.mapping with hM | ⟨hM, _⟩
          · exact .inl (w.noEnd c.valuesM hM (c.walk.snoc hn hf) hfi (c.restFirstM f hfp hrf))
          · exact .inr hM
        subst hno
        obtain ⟨ht, hlast, _⟩ := w.rests f hrf
        rw [ht] at hr
        simp only [PyRFLX.FType.isOpaque] at hr
        obtain ⟨σ1, u, v⟩ := r
        obtain ⟨h1, h2, h3⟩ := c.last_step w hn hf a hrf hr
        obtain ⟨it, fv', pos, F', I', hM', hfv'⟩ := step_rest w W S hH hR c I F hn hf hrf hr h3
        simp only at hnxt' h
        cases nxt' with
        | none => cases k <;> simp [PyRFLX.Msg.parseLoop] at h
        | some g =>
          have hg : g = FINAL := by
            rcases PyRFLX.next_link hnxt' with ⟨h, _⟩ | ⟨l, hl, hls, hlt, _⟩
            · exact absurd h hfi
            · rw [← hlt]; exact hlast l hl hls
          subst hg
          cases k with
          | zero => simp [PyRFLX.Msg.parseLoop] at h
          | succ k =>
            simp only [PyRFLX.Msg.parseLoop, if_true, Except.ok.injEq] at h
            subst h
            exact ⟨p ++ [f], f, it :: es, found w W S (fun _ => hM') (PyRFLX.newMapping_mem hM') h1 I' F' hnxt' hfv'⟩
      | false =>
        have hset : ∀ g ∈ p, (fv g).isSet (m.typeOf g) = .ok true := by
          intro g hg
          obtain ⟨a, n, hat⟩ := c.placed.mem g hg
          rw [c.agree g (hpr g hg)]
          exact hat.isSet
        obtain ⟨n, rfl, hn0, hfits⟩ := w.size c.valuesM c.mapping c.walk hn hf hset c.set c.fresh hrf hsize
        have hr' : m.parseSized σ f n last cur ⟨input.flatMap Spec.byteBits⟩ = .ok r := by
          cases hop : (m.typeOf f).isOpaque <;> rw [hop] at hr <;> exact hr
        obtain ⟨pos, hpos, hr2⟩ := PyRFLX.bind_ok (hr' : (m.currentPos σ f last cur).bind _ = _)
        have := c.currentPos w hn hf a hpos
        subst this
        rw [if_neg (by omega)] at hr2
        simp only [Bitstring.slice] at hr2
        split at hr2
        · cases hr2
        rename_i b' hb
        split at hb
        · cases hb
        rename_i hlen
        simp only [Except.ok.injEq] at hb
        subst hb
        obtain ⟨σ1, hs1, rfl⟩ := PyRFLX.map_ok hr2
        rw [PyRFLX.pySlice_eq] at hs1
        obtain ⟨fv', c', ha'⟩ := c.step w hn hf a hrf hsize (by omega) (PyRFLX.set!_ok hs1)
        obtain ⟨it, F', I'⟩ := step_sized w W S hH c I F hn hf hrf hsize hn0 hfits (by omega) (PyRFLX.set!_ok hs1) c'
        exact ih σ1 nxt' fv' _ f pos _ σ' (it :: es) c' I' F' hnxt' (fun f' hf' hfin => ha' f' (by rw [← hf']; exact hnxt') hfin) h

end Verif.Agree
