import Verif.Lemmas.Answers
import Verif.Spec.ConfigFiles

/-!
# Config files and project files are read
-/

namespace Verif.Lemmas
open Verif.Go Verif.Spec Verif.Model

theorem structField_mem {names : List Str} {name : Str} (h : name ∈ names) : structField names name = some name := by
  unfold structField; rw [if_pos h]

theorem structField_names {names : List Str} {key n : Str} (h : structField names key = some n) : n ∈ names := by
  unfold structField at h
  split at h
  · rename_i hm; injection h with h; rw [← h]; exact hm
  · exact List.mem_of_find?_eq_some h

theorem structField_not_other {names : List Str} {key n : Str} (hn : ∀ n ∈ names, ∀ c ∈ n, c < 0x80)
    (h : structField names key = some n) : ¬ OtherName n key := by
  intro ho
  have hm := structField_names h
  unfold structField at h
  split at h
  · injection h with h; exact ho.2 (by rw [h])
  · have := List.find?_some h
    rw [decide_eq_true_eq] at this
    apply ho.2
    rw [← smallLetters_fold ho.1, ← smallLetters_fold (hn n hm), this]

section
variable {α : Type} {names : List Str} {store : Str → JsonVal → α → α × Bool}

theorem storeList_append_fst (l r : List (Str × JsonVal)) (x : α) :
    (storeList names store (l ++ r) x).1 = (storeList names store r (storeList names store l x).1).1 := by
  induction l generalizing x with
  | nil => rfl
  | cons m l ih =>
    rw [List.cons_append, storeList, storeList]
    cases structField names m.1 with
    | none => exact ih x
    | some n => exact ih _

/-- What one field has is not touched by members of other names. -/
theorem storeList_get_other {β : Type} {get : α → β} {name : Str} (hn : ∀ n ∈ names, ∀ c ∈ n, c < 0x80)
    (hother : ∀ n ∈ names, n ≠ name → ∀ v x, get (store n v x).1 = get x) {l : List (Str × JsonVal)}
    (h : ∀ m ∈ l, OtherName name m.1) (x : α) : get (storeList names store l x).1 = get x := by
  induction l generalizing x with
  | nil => rfl
  | cons m l ih =>
    rw [storeList]
    have ih := ih fun m hm => h m (by simp [hm])
    cases hs : structField names m.1 with
    | none => exact ih x
    | some n =>
      show get (storeList names store l (store n m.2 x).1).1 = _
      rw [ih]
      apply hother n (structField_names hs)
      intro he
      subst he
      exact structField_not_other hn hs (h m (by simp))

theorem storeList_get_one {β : Type} {get : α → β} {name : Str} (hn : ∀ n ∈ names, ∀ c ∈ n, c < 0x80) (hm : name ∈ names)
    (hother : ∀ n ∈ names, n ≠ name → ∀ v x, get (store n v x).1 = get x) {v : JsonVal} {g : β → β}
    (hg : ∀ x, get (store name v x).1 = g (get x)) {fields : JsonMembers} (h : OneMember fields name v) (x : α) :
    get (storeList names store (memberList fields) x).1 = g (get x) := by
  obtain ⟨before, after, e, ho⟩ := h
  rw [e, storeList_append_fst, storeList, structField_mem hm]
  show get (storeList names store after (store name v (storeList names store before x).1).1).1 = _
  rw [storeList_get_other hn hother (fun m hm => ho m (by simp [hm])), hg,
    storeList_get_other hn hother (fun m hm => ho m (by simp [hm]))]

theorem storeList_no_error {l : List (Str × JsonVal)}
    (h : ∀ m ∈ l, ∀ n, structField names m.1 = some n → ∀ x, (store n m.2 x).2 = false) (x : α) :
    (storeList names store l x).2 = false := by
  induction l generalizing x with
  | nil => rfl
  | cons m l ih =>
    rw [storeList]
    have ih := ih fun m hm => h m (by simp [hm])
    cases hs : structField names m.1 with
    | none => exact ih x
    | some n =>
      show ((store n m.2 x).2 || (storeList names store l (store n m.2 x).1).2) = false
      rw [h m (by simp) n hs, ih, Bool.or_false]

theorem storeList_error {l : List (Str × JsonVal)} {m : Str × JsonVal} (hm : m ∈ l) {n : Str} (hs : structField names m.1 = some n)
    (h : ∀ x, (store n m.2 x).2 = true) (x : α) : (storeList names store l x).2 = true := by
  induction l generalizing x with
  | nil => cases hm
  | cons k l ih =>
    rw [storeList]
    rcases List.mem_cons.mp hm with rfl | hm
    · rw [hs]
      show ((store n m.2 x).2 || _) = true
      rw [h x, Bool.true_or]
    · cases structField names k.1 with
      | none => exact ih hm x
      | some n =>
        show ((store n k.2 x).2 || (storeList names store l (store n k.2 x).1).2) = true
        rw [ih hm, Bool.or_true]

end

/-- The one member with a name. -/
theorem oneMember_value {fields : JsonMembers} {name : Str} {v : JsonVal} (h : OneMember fields name v) {m : Str × JsonVal}
    (hm : m ∈ memberList fields) (hn : ¬ OtherName name m.1) : m.2 = v := by
  obtain ⟨before, after, e, ho⟩ := h
  rw [e] at hm
  rcases List.mem_append.mp hm with hm | hm
  · exact absurd (ho m (by simp [hm])) hn
  · rcases List.mem_cons.mp hm with rfl | hm
    · rfl
    · exact absurd (ho m (by simp [hm])) hn

/-! ## Values -/

theorem storeItems_strings (l old : List Str) : storeItems (stringItems l) old = (l, false) := by
  induction l generalizing old with
  | nil => rfl
  | cons s l ih =>
    show (_ :: (storeItems (stringItems l) old.tail).1, _ || (storeItems (stringItems l) old.tail).2) = _
    rw [ih]
    rfl

theorem undecimal_int (ds : Str) (h : ∀ c ∈ ds, c ∈ b!"0123456789") :
    ds.foldl (fun acc c => acc * 10 + (c.toNat - 48 : Int)) 0 = (undecimal ds : Int) := by
  unfold undecimal
  suffices ∀ (n : Nat), ds.foldl (fun acc c => acc * 10 + (c.toNat - 48 : Int)) (n : Int) =
      ((ds.foldl (fun acc c => acc * 10 + (c.toNat - 48)) n : Nat) : Int) from this 0
  induction ds with
  | nil => intro n; rfl
  | cons c ds ih =>
    intro n
    have hc := h c (by simp)
    have h48 : 48 ≤ c.toNat := by
      clear ih h
      revert hc c
      apply byte_forall
      decide +kernel
    rw [List.foldl_cons, List.foldl_cons, ← ih fun d hd => h d (by simp [hd])]
    congr 1
    omega

theorem parseDigits_number {ds : Str} (h : SomeDigits ds) (neg : Bool) {n : Int}
    (hn : n = if neg then -(undecimal ds : Int) else undecimal ds) (h1 : -2 ^ 63 ≤ n) (h2 : n < 2 ^ 63) :
    parseDigits neg ds = some n := by
  have hall : ds.all (fun c => 48 ≤ c && c ≤ 57) = true := by
    rw [List.all_eq_true]
    intro c hc
    have := h.2 c hc
    clear hc
    revert this
    revert c
    apply byte_forall
    decide +kernel
  unfold parseDigits
  rw [if_pos ⟨h.1, hall⟩]
  simp only
  rw [undecimal_int ds h.2, ← hn, if_pos (by omega)]

theorem atoi_whole {n : Int} {text : Str} (h : WholeNumber n text) : atoi text = some n := by
  obtain ⟨h1, h2, ds, hd, ⟨rfl, hn⟩ | ⟨rfl, hn⟩⟩ := h
  · have hp := parseDigits_number hd false (by simpa using hn) h1 h2
    obtain ⟨c, t, rfl⟩ := List.exists_cons_of_ne_nil hd.1
    have hc := hd.2 c (by simp)
    unfold atoi
    split
    · rename_i heq; injection heq with e1 _; subst e1; exact absurd hc (by decide)
    · rename_i heq; injection heq with e1 _; subst e1; exact absurd hc (by decide)
    · exact hp
  · exact parseDigits_number hd true (by simpa using hn) h1 h2

/-! ## The configuration -/

theorem configNames_ascii : ∀ n ∈ configFields.map (·.1), ∀ c ∈ n, c < 0x80 := by decide +kernel

theorem entryName_of_lookup {n : Str} {f : ConfigField} (h : configFields.lookup n = some f) : n = entryName f := by
  have hm : (n, f) ∈ configFields := by
    generalize configFields = l at h
    induction l with
    | nil => cases h
    | cons p l ih =>
      obtain ⟨k, g⟩ := p
      rw [List.lookup_cons] at h
      split at h
      · rename_i he
        injection h with h
        rw [eq_of_beq he, h]
        simp
      · exact List.mem_cons_of_mem _ (ih h)
  have : ∀ p ∈ configFields, p.1 = entryName p.2 := by decide +kernel
  exact this _ hm

theorem lookup_entryName (f : ConfigField) : configFields.lookup (entryName f) = some f := by
  cases f with
  | str o => cases o <;> decide +kernel
  | list o => cases o <;> decide +kernel
  | int o => cases o <;> decide +kernel
  | bool o => cases o <;> decide +kernel

theorem entryName_mem (f : ConfigField) : entryName f ∈ configFields.map (·.1) := by
  cases f with
  | str o => cases o <;> decide +kernel
  | list o => cases o <;> decide +kernel
  | int o => cases o <;> decide +kernel
  | bool o => cases o <;> decide +kernel

theorem storeConfigName_entry (f : ConfigField) (v : JsonVal) (c : Config) :
    storeConfigName (entryName f) v c = storeConfigField f v c := by
  unfold storeConfigName
  rw [lookup_entryName]

/-- The value of a field. -/
def fieldType : ConfigField → Type
  | .str _ => Str
  | .list _ => List Str
  | .int _ => Int
  | .bool _ => Bool

def getField : (f : ConfigField) → Config → fieldType f
  | .str o, c => c.str o
  | .list o, c => c.list o
  | .int o, c => c.int o
  | .bool o, c => c.bool o

theorem getField_other (f g : ConfigField) (h : f ≠ g) (v : JsonVal) (c : Config) :
    getField f (storeConfigField g v c).1 = getField f c := by
  cases f <;> cases g <;> first | rfl | skip
  all_goals
    rename_i o p
    have : o ≠ p := fun e => h (by rw [e])
    simp only [getField, storeConfigField]
    rw [if_neg this]

theorem storeConfigName_other (f : ConfigField) (n : Str) (h : n ≠ entryName f) (v : JsonVal) (c : Config) :
    getField f (storeConfigName n v c).1 = getField f c := by
  unfold storeConfigName
  split
  · rename_i g hg
    apply getField_other
    rintro rfl
    exact h (entryName_of_lookup hg)
  · rfl

/-- The value of the layer, or the old one. -/
def layered (layer : Layer) : (f : ConfigField) → fieldType f → fieldType f
  | .str o, old => (layer.str o).getD old
  | .list o, old => (layer.list o).getD old
  | .int o, old => (layer.int o).getD old
  | .bool o, old => (layer.bool o).getD old

theorem storeConfigField_value {layer : Layer} {f : ConfigField} {p : JsonVal → Prop} (hp : EntryValue layer f = some p) {v : JsonVal}
    (hv : p v) (c : Config) :
    getField f (storeConfigField f v c).1 = layered layer f (getField f c) ∧ (storeConfigField f v c).2 = false := by
  cases f with
  | str o =>
    simp only [EntryValue, Option.map_eq_some_iff] at hp
    obtain ⟨s, hs, rfl⟩ := hp
    have hv : v = .str s := hv
    subst hv
    simp [getField, storeConfigField, storeString, layered, hs]
    rfl
  | list o =>
    simp only [EntryValue, Option.map_eq_some_iff] at hp
    obtain ⟨s, hs, rfl⟩ := hp
    have hv : v = .arr (stringItems s) := hv
    subst hv
    simp [getField, storeConfigField, storeStrings, storeItems_strings, layered, hs]
    rfl
  | int o =>
    simp only [EntryValue, Option.map_eq_some_iff] at hp
    obtain ⟨s, hs, rfl⟩ := hp
    obtain ⟨text, rfl, hw⟩ := hv
    simp [getField, storeConfigField, storeInt, atoi_whole hw, layered, hs]
    rfl
  | bool o =>
    simp only [EntryValue, Option.map_eq_some_iff] at hp
    obtain ⟨s, hs, rfl⟩ := hp
    have hv : v = .bool s := hv
    subst hv
    simp [getField, storeConfigField, storeBool, layered, hs]
    rfl

theorem layered_none {layer : Layer} {f : ConfigField} (h : EntryValue layer f = none) (old : fieldType f) : layered layer f old = old := by
  cases f <;> simp only [EntryValue, Option.map_eq_none_iff] at h <;> (simp only [layered, h]; rfl)

theorem config_ext {layer : Layer} {c d : Config} (h : ∀ f, getField f d = layered layer f (getField f c)) : d = decodeInto layer c := by
  cases d
  unfold decodeInto
  congr
  · funext o; exact h (.str o)
  · funext o; exact h (.list o)
  · funext o; exact h (.int o)
  · funext o; exact h (.bool o)

/-- Structs that contain the fields of the configuration. -/
theorem storeList_field {α : Type} {names : List Str} {store : Str → JsonVal → α → α × Bool} (conf : α → Config)
    (hn : ∀ n ∈ names, ∀ c ∈ n, c < 0x80) (hnames : ∀ f, entryName f ∈ names)
    (hentry : ∀ f v x, conf (store (entryName f) v x).1 = (storeConfigField f v (conf x)).1)
    (hother : ∀ f, ∀ n ∈ names, n ≠ entryName f → ∀ v x, getField f (conf (store n v x).1) = getField f (conf x))
    {layer : Layer} {fields : JsonMembers} (h : Settings layer fields) (x : α) :
    conf (storeList names store (memberList fields) x).1 = decodeInto layer (conf x) := by
  apply config_ext
  intro f
  have hf := h f
  cases he : EntryValue layer f with
  | none =>
    rw [he] at hf
    rw [layered_none he]
    exact storeList_get_other (get := fun x => getField f (conf x)) hn (hother f) hf x
  | some p =>
    rw [he] at hf
    obtain ⟨v, hv, ho⟩ := hf
    refine storeList_get_one (get := fun x => getField f (conf x)) (g := layered layer f) hn (hnames f) (hother f) ?_ ho x
    intro y
    show getField f (conf (store (entryName f) v y).1) = _
    rw [hentry]
    exact (storeConfigField_value he hv _).1

/-- There is no error at settings. -/
theorem settings_no_error {layer : Layer} {fields : JsonMembers} (h : Settings layer fields) {m : Str × JsonVal}
    (hm : m ∈ memberList fields) {f : ConfigField} (hn : ¬ OtherName (entryName f) m.1) (c : Config) :
    (storeConfigField f m.2 c).2 = false := by
  have hf := h f
  cases he : EntryValue layer f with
  | none => rw [he] at hf; exact absurd (hf m hm) hn
  | some p =>
    rw [he] at hf
    obtain ⟨v, hv, ho⟩ := hf
    rw [oneMember_value ho hm hn]
    exact (storeConfigField_value he hv c).2

theorem configNames_field {n : Str} (h : n ∈ configFields.map (·.1)) : ∃ f, n = entryName f := by
  obtain ⟨p, hp, rfl⟩ := List.mem_map.mp h
  have : ∀ p ∈ configFields, p.1 = entryName p.2 := by decide +kernel
  exact ⟨p.2, this p hp⟩

theorem storeStruct_config {layer : Layer} {fields : JsonMembers} (h : Settings layer fields) (c : Config) :
    storeStruct (configFields.map (·.1)) storeConfigName (.obj fields) c = (decodeInto layer c, false) := by
  show storeMembers _ _ fields c = _
  rw [storeMembers_list]
  apply Prod.ext
  · refine storeList_field id configNames_ascii entryName_mem ?_ ?_ h c
    · intro f v x; simp only [id]; rw [storeConfigName_entry]
    · intro f n _ hne v x; exact storeConfigName_other f n hne v x
  · refine storeList_no_error ?_ c
    intro m hm n hs x
    obtain ⟨f, rfl⟩ := configNames_field (structField_names hs)
    rw [storeConfigName_entry]
    exact settings_no_error h hm (structField_not_other configNames_ascii hs) x

/-! ## Projects -/

theorem projectNames_ascii : ∀ n ∈ projectNames, ∀ c ∈ n, c < 0x80 := by decide +kernel

theorem metadataNames_ascii : ∀ n ∈ metadataNames, ∀ c ∈ n, c < 0x80 := by decide +kernel

theorem entryName_special (f : ConfigField) : entryName f ≠ b!"metadata" ∧ entryName f ≠ b!"output-file" ∧ entryName f ≠ b!"articles" := by
  cases f with
  | str o => cases o <;> decide +kernel
  | list o => cases o <;> decide +kernel
  | int o => cases o <;> decide +kernel
  | bool o => cases o <;> decide +kernel

theorem storeProjectName_entry (f : ConfigField) (v : JsonVal) (p : Project) :
    storeProjectName (entryName f) v p = ({ p with config := (storeConfigField f v p.config).1 }, (storeConfigField f v p.config).2) := by
  obtain ⟨h1, h2, h3⟩ := entryName_special f
  unfold storeProjectName
  rw [if_neg h1, if_neg h2, if_neg h3, storeConfigName_entry]

theorem projectNames_cases {n : Str} (h : n ∈ projectNames) :
    (∃ f, n = entryName f) ∨ n = b!"metadata" ∨ n = b!"output-file" ∨ n = b!"articles" := by
  unfold projectNames at h
  rcases List.mem_append.mp h with h | h
  · exact .inl (configNames_field h)
  · right
    simpa using h

/-- A text in a struct: its value, and no error. -/
theorem text_member {α : Type} {names : List Str} {store : Str → JsonVal → α → α × Bool} {name text : Str} {get : α → Str}
    (hn : ∀ n ∈ names, ∀ c ∈ n, c < 0x80) (hm : name ∈ names)
    (hother : ∀ n ∈ names, n ≠ name → ∀ v x, get (store n v x).1 = get x)
    (hg : ∀ v x, get (store name v x).1 = (storeString (get x) v).1 ∧ (store name v x).2 = (storeString (get x) v).2)
    {fields : JsonMembers} (h : TextMember fields name text) :
    (∀ x, get x = [] → get (storeList names store (memberList fields) x).1 = text) ∧
    ∀ m ∈ memberList fields, structField names m.1 = some name → ∀ x, (store name m.2 x).2 = false := by
  rcases h with h | ⟨rfl, h⟩
  · constructor
    · intro x _
      exact storeList_get_one (g := fun _ => text) hn hm hother (fun y => (hg _ y).1) h x
    · intro m hm' hs x
      rw [oneMember_value h hm' (structField_not_other hn hs), (hg _ x).2]
      rfl
  · constructor
    · intro x hx
      rw [storeList_get_other hn hother h, hx]
    · intro m hm' hs x
      exact absurd (h m hm') (structField_not_other hn hs)

theorem storeMetadata {m : Metadata} {fields : JsonMembers} (h : MetadataOf m fields) :
    (storeStruct metadataNames storeMetadataName (.obj fields) ⟨[], [], [], [], []⟩).1 = m ∧
    ∀ x, (storeStruct metadataNames storeMetadataName (.obj fields) x).2 = false := by
  obtain ⟨h1, h2, h3, h4, h5⟩ := h
  have t1 := text_member (names := metadataNames) (store := storeMetadataName) (get := Metadata.title) metadataNames_ascii (by decide)
    (by intro n hn hne v x
        simp only [metadataNames, List.mem_cons, List.not_mem_nil, or_false] at hn
        rcases hn with rfl | rfl | rfl | rfl | rfl <;> first | exact absurd rfl hne | rfl) (fun v x => ⟨rfl, rfl⟩) h1
  have t2 := text_member (names := metadataNames) (store := storeMetadataName) (get := Metadata.language) metadataNames_ascii (by decide)
    (by intro n hn hne v x
        simp only [metadataNames, List.mem_cons, List.not_mem_nil, or_false] at hn
        rcases hn with rfl | rfl | rfl | rfl | rfl <;> first | exact absurd rfl hne | rfl) (fun v x => ⟨rfl, rfl⟩) h2
  have t3 := text_member (names := metadataNames) (store := storeMetadataName) (get := Metadata.author) metadataNames_ascii (by decide)
    (by intro n hn hne v x
        simp only [metadataNames, List.mem_cons, List.not_mem_nil, or_false] at hn
        rcases hn with rfl | rfl | rfl | rfl | rfl <;> first | exact absurd rfl hne | rfl) (fun v x => ⟨rfl, rfl⟩) h3
  have t4 := text_member (names := metadataNames) (store := storeMetadataName) (get := Metadata.license) metadataNames_ascii (by decide)
    (by intro n hn hne v x
        simp only [metadataNames, List.mem_cons, List.not_mem_nil, or_false] at hn
        rcases hn with rfl | rfl | rfl | rfl | rfl <;> first | exact absurd rfl hne | rfl) (fun v x => ⟨rfl, rfl⟩) h4
  have t5 := text_member (names := metadataNames) (store := storeMetadataName) (get := Metadata.date) metadataNames_ascii (by decide)
    (by intro n hn hne v x
        simp only [metadataNames, List.mem_cons, List.not_mem_nil, or_false] at hn
        rcases hn with rfl | rfl | rfl | rfl | rfl <;> first | exact absurd rfl hne | rfl) (fun v x => ⟨rfl, rfl⟩) h5
  show (storeMembers _ _ fields _).1 = _ ∧ ∀ x, (storeMembers _ _ fields x).2 = false
  simp only [storeMembers_list]
  constructor
  · have e1 := t1.1 ⟨[], [], [], [], []⟩ rfl
    have e2 := t2.1 ⟨[], [], [], [], []⟩ rfl
    have e3 := t3.1 ⟨[], [], [], [], []⟩ rfl
    have e4 := t4.1 ⟨[], [], [], [], []⟩ rfl
    have e5 := t5.1 ⟨[], [], [], [], []⟩ rfl
    generalize (storeList metadataNames storeMetadataName (memberList fields) ⟨[], [], [], [], []⟩).1 = r at *
    cases r
    cases m
    simp only at e1 e2 e3 e4 e5
    subst e1 e2 e3 e4 e5
    rfl
  · intro x
    refine storeList_no_error ?_ x
    clear x
    intro m hm n hs x
    have hn := structField_names hs
    simp only [metadataNames, List.mem_cons, List.not_mem_nil, or_false] at hn
    rcases hn with rfl | rfl | rfl | rfl | rfl
    · exact t1.2 m hm hs x
    · exact t2.2 m hm hs x
    · exact t3.2 m hm hs x
    · exact t4.2 m hm hs x
    · exact t5.2 m hm hs x

theorem storeProject {layer : Layer} {m : Metadata} {out : Str} {articles : List Str} {fields : JsonMembers}
    (h : ProjectFile layer m out articles fields) (d : Config) :
    storeStruct projectNames storeProjectName (.obj fields) ⟨d, ⟨[], [], [], [], []⟩, [], []⟩ =
      (⟨decodeInto layer d, m, out, articles⟩, false) := by
  obtain ⟨hs, ⟨inner, hmeta, hm⟩, hout, hart⟩ := h
  have hmo : ∀ n ∈ projectNames, n ≠ b!"metadata" → ∀ v (x : Project), (storeProjectName n v x).1.metadata = x.metadata := by
    intro n hn hne v x
    rcases projectNames_cases hn with ⟨f, rfl⟩ | rfl | rfl | rfl
    · rw [storeProjectName_entry]
    · exact absurd rfl hne
    · rfl
    · rfl
  have hoo : ∀ n ∈ projectNames, n ≠ b!"output-file" → ∀ v (x : Project), (storeProjectName n v x).1.outputFile = x.outputFile := by
    intro n hn hne v x
    rcases projectNames_cases hn with ⟨f, rfl⟩ | rfl | rfl | rfl
    · rw [storeProjectName_entry]
    · rfl
    · exact absurd rfl hne
    · rfl
  have hao : ∀ n ∈ projectNames, n ≠ b!"articles" → ∀ v (x : Project), (storeProjectName n v x).1.articles = x.articles := by
    intro n hn hne v x
    rcases projectNames_cases hn with ⟨f, rfl⟩ | rfl | rfl | rfl
    · rw [storeProjectName_entry]
    · rfl
    · rfl
    · exact absurd rfl hne
  have hco : ∀ f, ∀ n ∈ projectNames, n ≠ entryName f → ∀ v (x : Project),
      getField f (storeProjectName n v x).1.config = getField f x.config := by
    intro f n hn hne v x
    rcases projectNames_cases hn with ⟨g, rfl⟩ | rfl | rfl | rfl
    · rw [storeProjectName_entry]
      exact getField_other f g (fun e => hne (by rw [e])) v _
    · rfl
    · rfl
    · rfl
  have tout := text_member (names := projectNames) (store := storeProjectName) (get := Project.outputFile) projectNames_ascii
    (by decide +kernel) hoo (fun v x => ⟨rfl, rfl⟩) hout
  show storeMembers _ _ fields _ = _
  rw [storeMembers_list]
  let x0 : Project := ⟨d, ⟨[], [], [], [], []⟩, [], []⟩
  have e1 : (storeList projectNames storeProjectName (memberList fields) x0).1.config = decodeInto layer d := by
    refine storeList_field Project.config projectNames_ascii ?_ ?_ hco hs x0
    · intro f; unfold projectNames; exact List.mem_append_left _ (entryName_mem f)
    · intro f v x; rw [storeProjectName_entry]
  have e2 : (storeList projectNames storeProjectName (memberList fields) x0).1.metadata = m := by
    rw [storeList_get_one (get := Project.metadata) (g := fun y => (storeStruct metadataNames storeMetadataName (.obj inner) y).1)
      projectNames_ascii (by decide +kernel) hmo (fun x => rfl) hmeta x0]
    show (storeStruct metadataNames storeMetadataName (.obj inner) ⟨[], [], [], [], []⟩).1 = m
    exact (storeMetadata hm).1
  have e3 := tout.1 x0 rfl
  have e4 : (storeList projectNames storeProjectName (memberList fields) x0).1.articles = articles :=
    storeList_get_one (get := Project.articles) (g := fun _ => articles) projectNames_ascii (by decide +kernel) hao
      (fun x => by
        show (storeItems (stringItems articles) x.articles).1 = _
        rw [storeItems_strings]) hart x0
  apply Prod.ext
  · show (storeList projectNames storeProjectName (memberList fields) x0).1 = _
    generalize (storeList projectNames storeProjectName (memberList fields) x0).1 = r at *
    cases r
    simp only at e1 e2 e3 e4
    subst e1 e2 e3 e4
    rfl
  · refine storeList_no_error ?_ x0
    intro k hk n hsf x
    rcases projectNames_cases (structField_names hsf) with ⟨f, rfl⟩ | rfl | rfl | rfl
    · rw [storeProjectName_entry]
      exact settings_no_error hs hk (structField_not_other projectNames_ascii hsf) _
    · rw [oneMember_value hmeta hk (structField_not_other projectNames_ascii hsf)]
      exact (storeMetadata hm).2 _
    · exact tout.2 k hk hsf x
    · rw [oneMember_value hart hk (structField_not_other projectNames_ascii hsf)]
      show (storeItems (stringItems articles) x.articles).2 = _
      rw [storeItems_strings]

end Verif.Lemmas
