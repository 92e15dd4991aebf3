import Verif.Model.Page
import Verif.Model.Parser
import Verif.Lemmas.Machine
/-! C40 and C41: the stream and the image resources of a page. -/
namespace Verif
open Spec

/-- what can be done with a page -/
inductive PageOp
  | addBytes (b : Bytes)
  | addStr (s : Str)
  | image (id : Nat) (w h : Rat)
  | font (ref : Str) (id : Nat)
  | annot (a : Annot)
  | moveTo (x yUp : Rat)
  | beginning

/-- one operation: the page, the stream portion added by it with the id returned, and the image drawn
with the name used. For an image the portion is the text of page.py:167-172. -/
def Page.op (F : NumFmt) (p : Page) : PageOp → Except PyErr (Page × List (Nat × Bytes) × List (Nat × Str))
  | .addBytes b => .ok ((p.addBytes b).2, [((p.addBytes b).1, b)], [])
  | .addStr s => match p.addStr s, encodeLatin s with
    | .ok r, .ok b => .ok (r.2, [(r.1, b)], [])
    | .error e, _ => .error e
    | _, .error e => .error e
  | .image id w h => match p.addImage F id w h, dget id (p.registerImage id).xObjects with
    | .ok q, some name => .ok (q, [(p.currentId, bytesOf (imageText F w h p.x p.yUp name))], [(id, name)])
    | .error e, _ => .error e
    | _, none => .error .keyError
  | .font ref id => .ok (p.addFont ref id, [], [])
  | .annot a => .ok (p.addAnnot a, [], [])
  | .moveTo x y => .ok ({ p with x := x, yUp := y }, [], [])
  | .beginning => .ok (p.goToBeginning, [], [])

/-- a history: the final page, the portions and the images drawn, in call order -/
def Page.run (F : NumFmt) (p : Page) : List PageOp → Except PyErr (Page × List (Nat × Bytes) × List (Nat × Str))
  | [] => .ok (p, [], [])
  | o :: l => match p.op F o with
    | .error e => .error e
    | .ok (q, a, b) => match q.run F l with
      | .error e => .error e
      | .ok (r, a', b') => .ok (r, a ++ a', b ++ b')

/-- the stream part of the page: keys are consecutive -/
def StreamInv (p : Page) : Prop := p.stream.map Prod.fst = List.range p.currentId

theorem addBytes_inv {p : Page} (h : StreamInv p) (b : Bytes) :
    (p.addBytes b).2.stream = p.stream ++ [(p.currentId, b)] ∧ StreamInv (p.addBytes b).2 := by
  have hn : dget p.currentId p.stream = none := by
    rw [dget_eq_none, h]
    simp
  have : (p.addBytes b).2.stream = p.stream ++ [(p.currentId, b)] := dset_of_none hn
  refine ⟨this, ?_⟩
  unfold StreamInv
  rw [this]
  unfold StreamInv at h
  simp only [List.map_append, h, List.map_cons, List.map_nil, Page.addBytes, List.range_succ]

theorem registerImage_stream (p : Page) (id : Nat) : (p.registerImage id).stream = p.stream ∧
    (p.registerImage id).currentId = p.currentId ∧ (p.registerImage id).x = p.x ∧
    (p.registerImage id).yUp = p.yUp := by
  unfold Page.registerImage
  split <;> exact ⟨rfl, rfl, rfl, rfl⟩

theorem encodeLatin_bytes {s : Str} {b : Bytes} (h : encodeLatin s = .ok b) : b = bytesOf s := by
  unfold encodeLatin at h
  split at h
  · cases h; rfl
  · cases h

theorem addStr_ok {p : Page} {s : Str} {r : Nat × Page} (h : p.addStr s = .ok r) :
    encodeLatin s = .ok (bytesOf s) ∧ r = p.addBytes (bytesOf s) := by
  unfold Page.addStr at h
  cases he : encodeLatin s with
  | error e => rw [he] at h; cases h
  | ok b =>
    rw [he] at h
    cases h
    rw [encodeLatin_bytes he]
    exact ⟨rfl, rfl⟩

theorem op_stream {F : NumFmt} {p q : Page} {o : PageOp} {a b} (h : p.op F o = .ok (q, a, b))
    (hi : StreamInv p) : q.stream = p.stream ++ a ∧ StreamInv q := by
  cases o with
  | addBytes c =>
    cases h
    exact addBytes_inv hi c
  | addStr s =>
    simp only [Page.op] at h
    split at h
    · rename_i r c hr hc
      cases h
      obtain ⟨h1, h2⟩ := addStr_ok hr
      rw [h1] at hc
      cases hc
      rw [h2]
      exact addBytes_inv hi _
    · cases h
    · cases h
  | image id w hh =>
    simp only [Page.op] at h
    split at h
    · rename_i q' name hq hn
      cases h
      simp only [Page.addImage, hn] at hq
      split at hq
      · rename_i r hr
        cases hq
        obtain ⟨h1, h2⟩ := addStr_ok hr
        obtain ⟨e1, e2, e3, e4⟩ := registerImage_stream p id
        have hi' : StreamInv (p.registerImage id) := by
          unfold StreamInv; rw [e1, e2]; exact hi
        have := addBytes_inv hi' (bytesOf (imageText F w hh (p.registerImage id).x (p.registerImage id).yUp name))
        rw [h2]
        rw [e1, e2] at this
        rw [e3, e4] at this ⊢
        exact this
      · cases hq
    · cases h
    · cases h
  | font ref id => cases h; exact ⟨by simp [Page.addFont], hi⟩
  | annot an => cases h; exact ⟨by simp [Page.addAnnot], hi⟩
  | moveTo x y => cases h; exact ⟨by simp, hi⟩
  | beginning => cases h; exact ⟨by simp [Page.goToBeginning], hi⟩

theorem run_stream {F : NumFmt} : ∀ (l : List PageOp) {p q : Page} {a b},
    p.run F l = .ok (q, a, b) → StreamInv p → q.stream = p.stream ++ a ∧ StreamInv q := by
  intro l
  induction l with
  | nil => intro p q a b h hi; cases h; exact ⟨by simp, hi⟩
  | cons o l ih =>
    intro p q a b h hi
    simp only [Page.run] at h
    split at h
    · cases h
    · rename_i p' a1 b1 ho
      split at h
      · cases h
      · rename_i r a2 b2 hr
        cases h
        obtain ⟨h1, h2⟩ := op_stream ho hi
        obtain ⟨h3, h4⟩ := ih hr h2
        exact ⟨by rw [h3, h1, List.append_assoc], h4⟩

theorem joinValues_bytes : ∀ (l : List (Nat × Bytes)),
    joinValues (l.map fun p => (Key.int p.1, Obj.bytes p.2)) = .ok (l.map Prod.snd).flatten := by
  intro l
  induction l with
  | nil => rfl
  | cons p l ih =>
    simp only [List.map_cons, joinValues, ih, List.flatten_cons]

/-- C40: after any history of operations on a new page, the data of the page's stream object is the
concatenation of the portions in the order they were added, and the ids returned are pairwise
different. -/
theorem C40_page_stream_order (F : NumFmt) (objId : Nat) (w h t b l r : Rat) (ops : List PageOp) (p : Page)
    (portions : List (Nat × Bytes)) (drawn : List (Nat × Str))
    (hrun : (Page.new objId w h t b l r).run F ops = .ok (p, portions, drawn)) :
    streamStr (.dict (p.stream.map fun q => (Key.int q.1, Obj.bytes q.2))) =
        .ok (portions.map Prod.snd).flatten ∧
      (portions.map Prod.fst).Nodup := by
  obtain ⟨h1, h2⟩ := run_stream ops hrun (by rfl)
  have : p.stream = portions := by simpa [Page.new, Page.goToBeginning] using h1
  rw [this]
  refine ⟨joinValues_bytes portions, ?_⟩
  unfold StreamInv at h2
  rw [this] at h2
  rw [h2]
  exact List.nodup_range

theorem natStr_inj {m n : Nat} (h : natStr m = natStr n) : m = n := by
  have := congrArg (fun s : Str => Spec.decVal (s.map latin1)) h
  simpa [decVal_natStr] using this

theorem imName_inj {m n : Nat} (h : imName m = imName n) : m = n := by
  unfold imName at h
  exact natStr_inj (List.append_cancel_left h)

/-- the image tables of a page mirror each other -/
structure ImInv (p : Page) : Prop where
  names : p.xres.map Prod.fst = (List.range p.xres.length).map imName
  mirror : p.xObjects = p.xres.map fun q => (q.2, q.1)
  ids : (p.xObjects.map Prod.fst).Nodup

theorem imNames_nodup (n : Nat) : ((List.range n).map imName).Nodup := by
  unfold List.Nodup
  rw [List.pairwise_map]
  exact List.nodup_range.imp fun hne h => hne (imName_inj h)

theorem register_inv {p : Page} (hi : ImInv p) (id : Nat) :
    ImInv (p.registerImage id) ∧ (∃ t, (p.registerImage id).xres = p.xres ++ t) ∧
      ∃ name, dget id (p.registerImage id).xObjects = some name ∧ (name, id) ∈ (p.registerImage id).xres := by
  unfold Page.registerImage
  cases hd : dget id p.xObjects with
  | some name =>
    refine ⟨hi, ⟨[], by simp⟩, name, hd, ?_⟩
    have := dget_mem hd
    rw [hi.mirror] at this
    obtain ⟨q, hq, e⟩ := List.mem_map.1 this
    cases e
    exact hq
  | none =>
    have hn : dget (imName p.xres.length) p.xres = none := by
      rw [dget_eq_none, hi.names]
      intro h
      obtain ⟨i, hi', e⟩ := List.mem_map.1 h
      have := imName_inj e
      simp only [List.mem_range] at hi'
      omega
    simp only
    rw [dset_of_none hn, dset_of_none hd]
    refine ⟨⟨?_, ?_, ?_⟩, ⟨_, rfl⟩, imName p.xres.length, ?_, by simp⟩
    · simp only [List.map_append, hi.names, List.map_cons, List.map_nil, List.length_append,
        List.length_cons, List.length_nil, Nat.zero_add, List.range_succ]
    · simp [hi.mirror]
    · simp only [List.map_append, List.map_cons, List.map_nil]
      rw [List.nodup_append]
      refine ⟨hi.ids, by simp, ?_⟩
      intro a ha b hb
      simp only [List.mem_singleton] at hb
      subst hb
      rintro rfl
      exact dget_eq_none.1 hd ha
    · have : (p.xObjects ++ [(id, imName p.xres.length)]) = dset id (imName p.xres.length) p.xObjects :=
        (dset_of_none hd).symm
      rw [this, dget_dset_self]

theorem addBytes_im (p : Page) (b : Bytes) : (p.addBytes b).2.xres = p.xres ∧
    (p.addBytes b).2.xObjects = p.xObjects := ⟨rfl, rfl⟩

/-- one operation keeps the tables in order, only adds entries, and draws with a registered name -/
theorem op_im {F : NumFmt} {p q : Page} {o : PageOp} {a b} (h : p.op F o = .ok (q, a, b))
    (hi : ImInv p) : ImInv q ∧ (∃ t, q.xres = p.xres ++ t) ∧ ∀ d ∈ b, (d.2, d.1) ∈ q.xres := by
  have same : ∀ q' : Page, q'.xres = p.xres → q'.xObjects = p.xObjects →
      ImInv q' ∧ (∃ t, q'.xres = p.xres ++ t) := by
    intro q' h1 h2
    exact ⟨⟨by rw [h1]; exact hi.names, by rw [h1, h2]; exact hi.mirror, by rw [h2]; exact hi.ids⟩,
      [], by simp [h1]⟩
  cases o with
  | addBytes c => cases h; obtain ⟨h1, h2⟩ := same (p.addBytes c).2 rfl rfl; exact ⟨h1, h2, by simp⟩
  | addStr s =>
    simp only [Page.op] at h
    split at h
    · rename_i r c hr hc
      cases h
      obtain ⟨h1, h2⟩ := addStr_ok hr
      rw [h2]
      obtain ⟨h1, h2⟩ := same (p.addBytes (bytesOf s)).2 rfl rfl
      exact ⟨h1, h2, by simp⟩
    · cases h
    · cases h
  | image id w hh =>
    simp only [Page.op] at h
    split at h
    · rename_i q' name hq hn
      cases h
      simp only [Page.addImage, hn] at hq
      split at hq
      · rename_i r hr
        cases hq
        obtain ⟨h1, h2⟩ := addStr_ok hr
        obtain ⟨g1, g2, n', g3, g4⟩ := register_inv hi id
        rw [hn] at g3
        cases g3
        rw [h2]
        refine ⟨⟨g1.names, g1.mirror, g1.ids⟩, g2, ?_⟩
        intro d hd
        simp only [List.mem_singleton] at hd
        subst hd
        exact g4
      · cases hq
    · cases h
    · cases h
  | font ref id => cases h; obtain ⟨h1, h2⟩ := same (p.addFont ref id) rfl rfl; exact ⟨h1, h2, by simp⟩
  | annot an => cases h; obtain ⟨h1, h2⟩ := same (p.addAnnot an) rfl rfl; exact ⟨h1, h2, by simp⟩
  | moveTo x y => cases h; obtain ⟨h1, h2⟩ := same { p with x := x, yUp := y } rfl rfl; exact ⟨h1, h2, by simp⟩
  | beginning => cases h; obtain ⟨h1, h2⟩ := same p.goToBeginning rfl rfl; exact ⟨h1, h2, by simp⟩

theorem run_im {F : NumFmt} : ∀ (l : List PageOp) {p q : Page} {a b}, p.run F l = .ok (q, a, b) → ImInv p →
    ImInv q ∧ (∃ t, q.xres = p.xres ++ t) ∧ ∀ d ∈ b, (d.2, d.1) ∈ q.xres := by
  intro l
  induction l with
  | nil => intro p q a b h hi; cases h; exact ⟨hi, ⟨[], by simp⟩, by simp⟩
  | cons o l ih =>
    intro p q a b h hi
    simp only [Page.run] at h
    split at h
    · cases h
    · rename_i p' a1 b1 ho
      split at h
      · cases h
      · rename_i r a2 b2 hr
        cases h
        obtain ⟨h1, ⟨t1, h2⟩, h3⟩ := op_im ho hi
        obtain ⟨h4, ⟨t2, h5⟩, h6⟩ := ih hr h1
        refine ⟨h4, ⟨t1 ++ t2, by rw [h5, h2, List.append_assoc]⟩, ?_⟩
        intro d hd
        rcases List.mem_append.1 hd with hd | hd
        · rw [h5]
          exact List.mem_append_left _ (h3 d hd)
        · exact h6 d hd

/-- C41: after any history of operations on a new page, every name drawn is defined in the page's
resources as the image it was drawn for, and two drawn images have the same name exactly when they are
the same image. -/
theorem C41_image_names (F : NumFmt) (objId : Nat) (w h t b l r : Rat) (ops : List PageOp) (p : Page)
    (portions : List (Nat × Bytes)) (drawn : List (Nat × Str))
    (hrun : (Page.new objId w h t b l r).run F ops = .ok (p, portions, drawn)) :
    (∀ d ∈ drawn, dget d.2 p.xres = some d.1) ∧
      ∀ d ∈ drawn, ∀ e ∈ drawn, d.2 = e.2 ↔ d.1 = e.1 := by
  obtain ⟨h1, _, h3⟩ := run_im ops hrun ⟨rfl, rfl, by simp [Page.new, Page.goToBeginning]⟩
  have hnd : (p.xres.map Prod.fst).Nodup := by rw [h1.names]; exact imNames_nodup _
  have hget : ∀ d ∈ drawn, dget d.2 p.xres = some d.1 := fun d hd => dget_of_mem hnd (h3 d hd)
  have hget2 : ∀ d ∈ drawn, dget d.1 p.xObjects = some d.2 := by
    intro d hd
    apply dget_of_mem h1.ids
    rw [h1.mirror]
    exact List.mem_map.2 ⟨_, h3 d hd, rfl⟩
  refine ⟨hget, ?_⟩
  intro d hd e he
  constructor
  · intro hde
    have := hget d hd
    rw [hde, hget e he] at this
    exact (Option.some.inj this).symm
  · intro hde
    have := hget2 d hd
    rw [hde, hget2 e he] at this
    exact (Option.some.inj this).symm

theorem imName_regular (n : Nat) : ∀ c ∈ imName n, isRegular (latin1 c) = true ∧ latin1 c ≠ 35 := by
  intro c hc
  have : c = 'I' ∨ c = 'm' ∨ c.isDigit := by
    simp only [imName, List.mem_append, List.mem_cons, List.not_mem_nil, or_false] at hc
    rcases hc with (rfl | rfl) | hc
    · simp
    · simp
    · exact .inr (.inr (natStr_digit hc))
  rcases this with rfl | rfl | hd
  · decide
  · decide
  · obtain ⟨h1, h2⟩ := isDigit_range hd
    have hl := latin1_toNat (c := c) (by omega)
    have : ∀ n : Fin 256, 48 ≤ n.val → n.val ≤ 57 →
        isRegular (UInt8.ofNat n.val) = true ∧ UInt8.ofNat n.val ≠ 35 := by decide +kernel
    have := this ⟨(latin1 c).toNat, (latin1 c).toNat_lt⟩ (by simp only; omega) (by simp only; omega)
    simpa using this

/-- the operators written for an image -/
theorem image_ops (F : NumFmt) (hF : ∀ x, NumText (F.fmt x)) (w h x y : Rat) (n : Nat) :
    ∃ ops, OpsTo (imageText F w h x y (imName n)) ops ∧ ∀ m : MS, m.path = [] → m.text = none →
      ∃ gs, exec m ops = some (m, [.xobject gs (bytesOf (imName n))]) ∧
        gs.cms = m.gs.cms ++ [[bytesOf (F.fmt w), b!"0", b!"0", bytesOf (F.fmt h), bytesOf (F.fmt x), bytesOf (F.fmt y)]] := by
  have hz : NumText c!"0" := by unfold NumText; decide
  have e : imageText F w h x y (imName n) = (' ' :: c!"q") ++ ' ' :: (numsOp
      [F.fmt w, c!"0", c!"0", F.fmt h, F.fmt x, F.fmt y] c!"cm" ++ ' ' :: (('/' :: imName n ++ ' ' :: c!"Do") ++
        ' ' :: c!"Q")) := by
    simp [imageText, numsOp]
  have hname : LexTo (bytesOf ('/' :: imName n)) [.name (bytesOf (imName n))] := by
    have := LexTo.name (w := bytesOf (imName n)) (by
      intro c hc
      obtain ⟨d, hd, rfl⟩ := List.mem_map.1 hc
      exact (imName_regular n d hd).1) (by
      intro hc
      obtain ⟨d, hd, e⟩ := List.mem_map.1 hc
      exact (imName_regular n d hd).2 e)
    exact this
  have hdo : OpsTo ('/' :: imName n ++ ' ' :: c!"Do") [⟨[.name (bytesOf (imName n))], b!"Do"⟩] := by
    apply OpsTo.op (w := b!"Do") (by decide)
    · intro a ha
      simp only [List.mem_singleton] at ha
      subst ha
      trivial
    · exact lexTo_append_space hname (lexTo_word c!"Do" (by decide))
  have ho := (opsTo_word c!"q" (by decide) (by decide)).space.append_space
    ((numsOp_ops (l := [F.fmt w, c!"0", c!"0", F.fmt h, F.fmt x, F.fmt y]) (w := c!"cm") (by
      simp [hF, hz]) (by decide) (by decide)).append_space (hdo.append_space
        (opsTo_word c!"Q" (by decide) (by decide))))
  refine ⟨_, by rw [e]; exact ho, ?_⟩
  intro m hp ht
  have hex := exec_append_of (exec_one (step_q hp ht)) (exec_append_of (exec_one
    (o := ⟨[.num (bytesOf (F.fmt w)), .num b!"0", .num b!"0", .num (bytesOf (F.fmt h)), .num (bytesOf (F.fmt x)),
      .num (bytesOf (F.fmt y))], b!"cm"⟩) (step_cm (by exact hp) (by exact ht))) (exec_append_of
        (exec_one (o := ⟨[.name (bytesOf (imName n))], b!"Do"⟩) (step_Do (by exact hp) (by exact ht)))
        (exec_one (step_Q rfl (by exact hp) (by exact ht)))))
  exact ⟨_, hex, rfl⟩

/-- C41: the portion written for an image paints exactly that resource, scaled to its size and moved to
its place, and leaves the machine as it was. -/
theorem C41_image_painted (F : NumFmt) (hF : ∀ x, NumText (F.fmt x)) (w h x y : Rat) (n : Nat) (m : MS)
    (hp : m.path = []) (ht : m.text = none) :
    ∃ gs, execStream m (bytesOf (imageText F w h x y (imName n))) = some (m, [.xobject gs (bytesOf (imName n))]) ∧
      gs.cms = m.gs.cms ++ [[bytesOf (F.fmt w), b!"0", b!"0", bytesOf (F.fmt h), bytesOf (F.fmt x),
        bytesOf (F.fmt y)]] := by
  obtain ⟨ops, h1, h2⟩ := image_ops F hF w h x y n
  rw [execStream, h1.ops]
  exact h2 m hp ht

example : ∃ r, (Page.new 3 100 100 0 0 0 0).run ⟨fun _ => c!"1", fun _ => c!"1"⟩
    [.image 7 10 10, .addBytes b!" x", .image 8 1 1, .image 7 2 2] = .ok r ∧
    r.2.2 = [(7, c!"Im0"), (8, c!"Im1"), (7, c!"Im0")] ∧ r.2.1.map Prod.fst = [0, 1, 2, 3] := by
  refine ⟨_, rfl, ?_, ?_⟩ <;> decide +kernel
example : NumText c!"12.5" := by unfold NumText; decide
example : execStream ⟨⟨[b!"0"], [b!"0"], b!"1", b!"0", ([], b!"0"), [], ([], b!"0"), b!"0", b!"0"⟩, [], [], none⟩
    (bytesOf (imageText ⟨fun _ => c!"1.5", fun _ => c!"1"⟩ 1 1 1 1 (imName 12))) =
    some (⟨⟨[b!"0"], [b!"0"], b!"1", b!"0", ([], b!"0"), [], ([], b!"0"), b!"0", b!"0"⟩, [], [], none⟩,
      [.xobject ⟨[b!"0"], [b!"0"], b!"1", b!"0", ([], b!"0"),
        [[b!"1.5", b!"0", b!"0", b!"1.5", b!"1.5", b!"1.5"]], ([], b!"0"), b!"0", b!"0"⟩ b!"Im12"]) := by
  decide +kernel

end Verif
