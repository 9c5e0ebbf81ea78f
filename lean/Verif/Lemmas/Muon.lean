import Verif.Spec.Muon
import Verif.Lemmas.Masks

/- Helper lemmas about single operations of a muon batch. -/
namespace Tomopt

variable {α : Type}

theorem toMuon?_id {r : RawMuon} {m : Muon} (h : RawMuon.toMuon? r = some m) :
    m.id = r.id ∧ m.p = r.p ∧ m.x = r.x ∧ m.y = r.y ∧ m.z = r.z ∧ r.th = some m.th ∧ r.ph = some m.ph := by
  obtain ⟨id, x, y, z, p, th, ph⟩ := r
  cases th <;> cases ph <;> simp [RawMuon.toMuon?] at h
  subst h; simp

theorem toMuon?_toRaw (m : Muon) : RawMuon.toMuon? m.toRaw = some m := by
  simp [MuonOf.toRaw, RawMuon.toMuon?]

theorem keepRow_toMuon {r : RawMuon} (h : Batch.keepRow r = true) : ∃ m, RawMuon.toMuon? r = some m := by
  obtain ⟨id, x, y, z, p, th, ph⟩ := r
  cases th <;> cases ph <;> simp_all [RawMuon.toMuon?, Batch.keepRow]

/-- Converting kept rows loses no row: identities and momenta are those of the selected rows. -/
theorem kept_rows {δ : Type} (g : Muon → δ) (g' : RawMuon → δ)
    (hg : ∀ r m, RawMuon.toMuon? r = some m → g m = g' r) :
    ∀ (raws : List RawMuon), (∀ r ∈ raws, Batch.keepRow r = true) →
      (raws.filterMap RawMuon.toMuon?).map g = raws.map g'
  | [], _ => rfl
  | r :: raws, h => by
      obtain ⟨m, hm⟩ := keepRow_toMuon (h r (by simp))
      have ih := kept_rows g g' hg raws (fun r' hr' => h r' (by simp [hr']))
      simp [hm, ih, hg r m hm]

theorem pick_keep_forall {β : Type} (p : β → Bool) (xs : List β) : ∀ r ∈ pick (xs.map p) xs, p r = true := by
  rw [pick_map_filter]; intro r hr; exact (List.mem_filter.mp hr).2

theorem all_keep {β : Type} (p : β → Bool) (xs : List β) (h : ¬ countTrue (xs.map p) < xs.length) :
    ∀ r ∈ xs, p r = true := by
  have h1 := all_true_of_count (xs.map p) (by simpa using h)
  intro r hr
  have : p r ∈ xs.map p := List.mem_map.mpr ⟨r, hr, rfl⟩
  rw [h1] at this
  exact (List.mem_replicate.mp this).2

/-- How a non-recording operation may change the batch: identities and momenta (`key`) unchanged, or filtered by a mask that is also
applied to every hit tensor, with the dropped rows appended to the removed muons. -/
structure Filtered (b b' : Batch α) (keep : List Bool) : Prop where
  len : keep.length = b.muons.length
  kept : b'.muons.map (fun m => (m.id, m.p)) = pick keep (b.muons.map fun m => (m.id, m.p))
  gone : ∃ rs : List RawMuon, b'.removed = b.removed ++ rs ∧
    rs.map (fun m => (m.id, m.p)) = pick (inv keep) (b.muons.map fun m => (m.id, m.p))
  hits : b'.hits = Batch.filterHits b.hits keep

structure Same (b b' : Batch α) : Prop where
  keys : b'.muons.map (fun m => (m.id, m.p)) = b.muons.map fun m => (m.id, m.p)
  removed : b'.removed = b.removed
  hits : b'.hits = b.hits

theorem optUpd_keys {mask : List Bool} {rows rows' : List Muon} {a : Option Arg} {f : Muon → ℝ → Muon}
    (hf : ∀ m v, ((f m v).id, (f m v).p) = (m.id, m.p)) (h : optUpd mask rows a f = .ok rows') :
    rows'.map (fun m => (m.id, m.p)) = rows.map (fun m => (m.id, m.p)) := by
  unfold optUpd at h
  cases a with
  | none => simp at h; rw [h]
  | some a =>
    simp only at h
    cases hv : a.expand (countTrue mask) with
    | error e => simp [hv, bind, Except.bind] at h
    | ok vs =>
      simp [hv, bind, Except.bind] at h
      subst h
      exact maskedUpd_map_eq (fun m : Muon => (m.id, m.p)) f hf mask rows vs

theorem removeUpwards_cases (b : Batch α) (raws : List RawMuon)
    (hk : raws.map (fun m => (m.id, m.p)) = b.muons.map fun m => (m.id, m.p)) :
    Same b (b.removeUpwards raws) ∨ ∃ keep, Filtered b (b.removeUpwards raws) keep := by
  have hconv : ∀ (r : RawMuon) (m : Muon), RawMuon.toMuon? r = some m → (m.id, m.p) = (r.id, r.p) := by
    intro r m h; obtain ⟨h1, h2, _⟩ := toMuon?_id h; simp [h1, h2]
  unfold Batch.removeUpwards
  simp only
  split
  case isTrue h =>
    right
    refine ⟨raws.map Batch.keepRow, ?_, ?_, ?_, ?_⟩
    · have := congrArg List.length hk; simpa using this
    · simp only
      rw [kept_rows (fun m => (m.id, m.p)) (fun m => (m.id, m.p)) hconv _ (pick_keep_forall _ _), ← hk, pick_map]
    · refine ⟨_, rfl, ?_⟩
      rw [← hk, pick_map]
    · rfl
  case isFalse h =>
    left
    refine ⟨?_, rfl, rfl⟩
    simp only
    rw [kept_rows (fun m => (m.id, m.p)) (fun m => (m.id, m.p)) hconv _ (all_keep _ _ h), hk]

theorem bind_ok {β γ : Type} {e : Except Err β} {f : β → Except Err γ} {c : γ} (h : (e >>= f) = .ok c) :
    ∃ v, e = .ok v ∧ f v = .ok c := by
  cases e with
  | error x => simp [bind, Except.bind] at h
  | ok v => exact ⟨v, rfl, h⟩

theorem toRaw_keys (ms : List Muon) :
    (ms.map MuonOf.toRaw).map (fun m => (m.id, m.p)) = ms.map fun m => (m.id, m.p) := by
  simp [MuonOf.toRaw]

theorem scatterXYRow_key (m : RawMuon) (a c : ℝ) :
    ((Batch.scatterXYRow m a c).id, (Batch.scatterXYRow m a c).p) = (m.id, m.p) := by
  unfold Batch.scatterXYRow
  split
  · split <;> simp
  · simp

/-- Effect of any operation other than recording hits. -/
theorem step_cases {b b' : Batch α} {op : MuOp α} (h : b.step op = .ok b')
    (hna : ∀ hits pos, op ≠ .append hits pos) :
    Same b b' ∨ ∃ keep, Filtered b b' keep := by
  cases op with
  | append hits pos => exact absurd rfl (hna hits pos)
  | snap => simp [Batch.step] at h; subst h; left; exact ⟨rfl, rfl, rfl⟩
  | dxyz dx dy dz m =>
    simp only [Batch.step, Batch.scatterDxyz] at h
    obtain ⟨mask, -, h⟩ := bind_ok h
    obtain ⟨m1, h1, h⟩ := bind_ok h
    obtain ⟨m2, h2, h⟩ := bind_ok h
    obtain ⟨m3, h3, h⟩ := bind_ok h
    simp at h; subst h; left
    refine ⟨?_, rfl, rfl⟩
    simp only
    rw [optUpd_keys ?_ h3, optUpd_keys ?_ h2, optUpd_keys ?_ h1] <;> intro _ _ <;> rfl
  | propDz d m =>
    simp only [Batch.step, Batch.propagateDz] at h
    obtain ⟨mask, -, h⟩ := bind_ok h
    obtain ⟨vs, -, h⟩ := bind_ok h
    simp at h; subst h; left
    refine ⟨maskedUpd_map_eq _ _ ?_ _ _ _, rfl, rfl⟩
    intro _ _; rfl
  | propD d m =>
    simp only [Batch.step, Batch.propagateD] at h
    obtain ⟨mask, -, h⟩ := bind_ok h
    obtain ⟨vs, -, h⟩ := bind_ok h
    simp at h; subst h; left
    refine ⟨maskedUpd_map_eq _ _ ?_ _ _ _, rfl, rfl⟩
    intro _ _; rfl
  | filter keep =>
    simp only [Batch.step, Batch.filterMuons] at h
    split at h
    · split at h
      · simp at h
      rename_i hl
      simp at h; subst h; right
      refine ⟨keep, by simpa using hl, ?_, ⟨_, rfl, ?_⟩, rfl⟩
      · simp [pick_map]
      · simp [pick_map, MuonOf.toRaw]
    · simp at h; subst h; left; exact ⟨rfl, rfl, rfl⟩
  | dthetaDphi dth dph m =>
    simp only [Batch.step, Batch.scatterDthetaDphi] at h
    obtain ⟨mask, -, h⟩ := bind_ok h
    obtain ⟨m1, h1, h⟩ := bind_ok h
    obtain ⟨m2, h2, h⟩ := bind_ok h
    simp at h; subst h
    apply removeUpwards_cases
    rw [toRaw_keys, optUpd_keys ?_ h2, optUpd_keys ?_ h1]
    · intro m v; rfl
    · intro m v; unfold Batch.addTheta; simp only; split <;> rfl
  | dthetaXY dtx dty m =>
    simp only [Batch.step, Batch.scatterDthetaXY] at h
    obtain ⟨mask, -, h⟩ := bind_ok h
    obtain ⟨xs, -, h⟩ := bind_ok h
    obtain ⟨ys, -, h⟩ := bind_ok h
    simp at h; subst h
    apply removeUpwards_cases
    rw [maskedUpd_map_eq (fun m : RawMuon => (m.id, m.p)) _ (fun m d => scatterXYRow_key m d.1 d.2), toRaw_keys]

theorem ids_of_keys {ms ms' : List Muon}
    (h : ms'.map (fun m => (m.id, m.p)) = ms.map fun m => (m.id, m.p)) :
    ms'.map (·.id) = ms.map (·.id) := by
  have := congrArg (List.map Prod.fst) h
  simpa [Function.comp_def] using this

theorem tensors_filterHits (hits : Dict String (Dict String (List (List α)))) (keep : List Bool)
    (b b' : Batch α) (hb : b.hits = hits) (hb' : b'.hits = Batch.filterHits hits keep) (pos var : String) :
    b'.tensors pos var = (b.tensors pos var).map (pick keep) := by
  unfold Batch.tensors
  rw [hb', hb]
  unfold Batch.filterHits
  rw [Dict.get?_mapVals]
  cases h1 : hits.get? pos with
  | none => simp
  | some vars =>
    simp only [Option.map_some]
    rw [Dict.get?_mapVals]
    cases h2 : vars.get? var <;> simp

/-- Tensors stored after one `append_hits`. -/
theorem tensors_append (b : Batch α) (hits : Dict String (List α)) (p pos var : String) :
    (b.appendHits hits p).tensors pos var = b.tensors pos var ++
      (if p = pos then (hits.filter (fun kv => kv.1 = var)).map (·.2) else []) := by
  unfold Batch.appendHits
  generalize hb : b.hits = d
  have key : ∀ (hits : Dict String (List α)) (d : Dict String (Dict String (List (List α)))),
      ({ b with hits := hits.foldl (fun acc kv =>
          acc.modify p [] fun vars => vars.modify kv.1 [] fun tensors => tensors ++ [kv.2]) d } : Batch α).tensors pos var
        = ({ b with hits := d } : Batch α).tensors pos var ++
          (if p = pos then (hits.filter (fun kv => kv.1 = var)).map (·.2) else []) := by
    intro hits
    induction hits with
    | nil => intro d; simp
    | cons kv hits ih =>
      intro d
      simp only [List.foldl_cons]
      rw [ih]
      by_cases hp : p = pos
      · subst hp
        simp only [if_true]
        by_cases hv : kv.1 = var
        · subst hv
          simp only [Batch.tensors, Dict.get?_modify_self]
          cases h1 : Dict.get? d p with
          | none => simp [Dict.get?]
          | some vars => cases h2 : Dict.get? vars kv.1 <;> simp [h2]
        · simp only [Batch.tensors, Dict.get?_modify_self, Dict.get?_modify_ne _ _ _ _ _ hv]
          cases h1 : Dict.get? d p with
          | none => simp [Dict.get?, hv]
          | some vars => simp [hv]
      · simp only [hp, if_false, List.append_nil]
        simp only [Batch.tensors, Dict.get?_modify_ne _ _ _ _ _ hp]
  have := key hits d
  rw [this]
  subst hb
  rfl

theorem lookup_zip_self {rows : List α} : ∀ {ids : List Nat}, ids.Nodup → rows.length = ids.length →
    ids.map (fun i => List.lookup i (ids.zip rows)) = rows.map some := by
  induction rows with
  | nil => intro ids _ h; cases ids <;> simp_all
  | cons r rows ih =>
    intro ids hn h
    cases ids with
    | nil => simp at h
    | cons i ids =>
      have hn' := List.nodup_cons.mp hn
      have := ih hn'.2 (by simpa using h)
      simp only [List.zip_cons_cons, List.map_cons, List.lookup_cons_self]
      congr 1
      rw [← this]
      apply List.map_congr_left
      intro j hj
      have : j ≠ i := fun hji => hn'.1 (hji ▸ hj)
      have : (j == i) = false := by simpa using this
      simp [List.lookup, this]

end Tomopt
