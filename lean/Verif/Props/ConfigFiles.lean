import Verif.Lemmas.ConfigFiles
import Verif.Lemmas.JsonTexts
import Verif.Props.Config
import Verif.Props.Answers

/-!
# C75: settings, articles and metadata of a book are those in the config file and the project file
-/

namespace Verif.Props
open Verif.Go Verif.Model Verif.Spec Verif.Lemmas

/-- **C75** (config file) A file with these settings, however it is written, changes exactly these settings. -/
theorem C75_config_file (layer : Layer) (fields : JsonMembers) (bytes : Str) (h : JsonText (.obj fields) bytes)
    (hn : nesting (.obj fields) ≤ 10000) (hs : Settings layer fields) (old : Config) :
    ∃ c, unmarshalConfig bytes old = some c ∧ (∀ o, c.str o = (layer.str o).getD (old.str o)) ∧
      (∀ o, c.list o = (layer.list o).getD (old.list o)) ∧ (∀ o, c.int o = (layer.int o).getD (old.int o)) ∧
      ∀ o, c.bool o = (layer.bool o).getD (old.bool o) := by
  refine ⟨decodeInto layer old, ?_, fun _ => rfl, fun _ => rfl, fun _ => rfl, fun _ => rfl⟩
  unfold unmarshalConfig
  rw [parseJson_text h hn]
  simp only
  rw [storeStruct_config hs]
  rfl

/-- **C75** (project file) A project file, however it is written, gives its articles in their order, its metadata, its output
file and its settings. -/
theorem C75_project_file (layer : Layer) (m : Metadata) (out : Str) (articles : List Str) (fields : JsonMembers) (bytes : Str)
    (h : JsonText (.obj fields) bytes) (hn : nesting (.obj fields) ≤ 10000) (hp : ProjectFile layer m out articles fields)
    (d : Config) :
    ∃ p, loadProject d bytes = some p ∧ p.articles = articles ∧ p.metadata = m ∧ p.outputFile = out ∧
      (∀ o, p.config.str o = (layer.str o).getD (d.str o)) ∧ (∀ o, p.config.list o = (layer.list o).getD (d.list o)) ∧
      (∀ o, p.config.int o = (layer.int o).getD (d.int o)) ∧ ∀ o, p.config.bool o = (layer.bool o).getD (d.bool o) := by
  refine ⟨⟨decodeInto layer d, m, out, articles⟩, ?_, rfl, rfl, rfl, fun _ => rfl, fun _ => rfl, fun _ => rfl, fun _ => rfl⟩
  unfold loadProject
  rw [parseJson_text h hn]
  simp only
  rw [storeProject hp]
  rfl

theorem loadBook_files {machine : Machine} {cwd file text : Str} {cli fileLayer projectLayer : Layer}
    {fileFields projectFields : JsonMembers} {projectFile projectText : Str} {m : Metadata} {out : Str} {articles : List Str}
    (h1 : JsonText (.obj fileFields) text) (hn1 : nesting (.obj fileFields) ≤ 10000) (hs1 : Settings fileLayer fileFields)
    (h2 : JsonText (.obj projectFields) projectText) (hn2 : nesting (.obj projectFields) ≤ 10000)
    (hs2 : ProjectFile projectLayer m out articles projectFields) (outputFile : Str) :
    loadBook machine cwd (some (file, text)) cli (projectFile, projectText) outputFile =
      (projectConfig ⟨machine, cwd, some (file, fileLayer), cli⟩ projectFile projectLayer).bind fun c =>
        .ok (c, ⟨decodeInto projectLayer (defaultConfig machine), m,
          toAbsolutePath (projectCwd cwd projectFile) (if outputFile ≠ [] then outputFile else out), articles⟩) := by
  have e1 : loadConfigBytes cwd file text (defaultConfig machine) = loadConfig cwd file fileLayer (defaultConfig machine) := by
    unfold loadConfigBytes unmarshalConfig
    rw [parseJson_text h1 hn1]
    simp only
    rw [storeStruct_config hs1]
    rfl
  have e2 : loadProject (defaultConfig machine) projectText =
      some ⟨decodeInto projectLayer (defaultConfig machine), m, out, articles⟩ := by
    unfold loadProject
    rw [parseJson_text h2 hn2]
    simp only
    rw [storeProject hs2]
    rfl
  have e3 : afterConfigBytes machine cwd (some (file, text)) = afterConfigFile ⟨machine, cwd, some (file, fileLayer), cli⟩ := by
    unfold afterConfigBytes afterConfigFile
    simp only
    rw [e1]
    unfold loadConfig
    rcases C23_check_is_documentation (makePathsAbsolute cwd file (decodeInto fileLayer (defaultConfig machine))) with ⟨ha, hb⟩
    by_cases hd : Documented (makePathsAbsolute cwd file (decodeInto fileLayer (defaultConfig machine)))
    · simp only [ha.mpr hd]; rfl
    · simp only [hb.mpr hd]; rfl
  unfold loadBook projectConfig
  simp only [e3, e2]
  cases afterConfigFile ⟨machine, cwd, some (file, fileLayer), cli⟩ with
  | err => rfl
  | panic => rfl
  | fatal => rfl
  | ok cur =>
    show (mergeIntoCurrentConfig _ _ _ cur).bind _ = ((mergeIntoCurrentConfig _ _ _ cur).bind _).bind _
    cases mergeIntoCurrentConfig (projectCwd cwd projectFile) (defaultConfig machine) (decodeInto projectLayer (defaultConfig machine)) cur with
    | err => rfl
    | panic => rfl
    | fatal => rfl
    | ok cur =>
      show (mergeIntoCurrentConfig _ _ _ cur).bind _ = (mergeIntoCurrentConfig _ _ _ cur).bind _
      cases mergeIntoCurrentConfig (projectCwd cwd projectFile) (defaultConfig machine) (decodeInto cli (defaultConfig machine)) cur <;> rfl

/-- **C75** (whole book) When a book is made from a project file and a config file, the articles and the metadata are those of the
project file, and a setting that is a text (and no path) has the value of the command line, of the project file, of the config file
or the default value, in this order (with the exception of C22 for values that are the default value). All other statements of C22,
C23 and C25 about layers hold for the files as well, because of the second part. -/
theorem C75_book_of_the_files (machine : Machine) (cwd file text : Str) (cli fileLayer projectLayer : Layer)
    (fileFields projectFields : JsonMembers) (projectFile projectText : Str) (m : Metadata) (out : Str) (articles : List Str)
    (h1 : JsonText (.obj fileFields) text) (hn1 : nesting (.obj fileFields) ≤ 10000) (hs1 : Settings fileLayer fileFields)
    (h2 : JsonText (.obj projectFields) projectText) (hn2 : nesting (.obj projectFields) ≤ 10000)
    (hs2 : ProjectFile projectLayer m out articles projectFields) (outputFile : Str) (c : Config) (p : Project)
    (hok : loadBook machine cwd (some (file, text)) cli (projectFile, projectText) outputFile = .ok (c, p)) :
    (p.articles = articles ∧ p.metadata = m ∧
      p.outputFile = toAbsolutePath (projectCwd cwd projectFile) (if outputFile ≠ [] then outputFile else out)) ∧
    projectConfig ⟨machine, cwd, some (file, fileLayer), cli⟩ projectFile projectLayer = .ok c ∧
    ∀ o, isPathOpt o = false → o ≠ .pandocExecutable → (∀ v, projectLayer.str o = some v → v ≠ (defaultConfig machine).str o) →
      (∀ v, cli.str o = some v → v ≠ (defaultConfig machine).str o) →
      c.str o = firstSet [cli.str o, projectLayer.str o, fileLayer.str o] ((defaultConfig machine).str o) := by
  rw [loadBook_files h1 hn1 hs1 h2 hn2 hs2] at hok
  cases he : projectConfig ⟨machine, cwd, some (file, fileLayer), cli⟩ projectFile projectLayer with
  | err => rw [he] at hok; cases hok
  | panic => rw [he] at hok; cases hok
  | fatal => rw [he] at hok; cases hok
  | ok c' =>
    rw [he] at hok
    injection hok with hok
    injection hok with e1 e2
    subst e1
    subst e2
    exact ⟨⟨rfl, rfl, rfl⟩, rfl, fun o ho hexe hp hc => C22_text_option_partial he o ho hexe hp hc⟩

/-! ## Wrong files -/

mutual
theorem memberText {fields : JsonMembers} {s : Str} (h : MembersText fields s) {m : Str × JsonVal} (hm : m ∈ memberList fields) :
    ∃ t, ValueText m.2 t :=
  match fields, h with
  | .nil, _ => by cases hm
  | .cons key value .nil, h => by
    rw [MembersText] at h
    obtain ⟨a, k, b, c, t, d, -, -, -, -, -, ht, -⟩ := h
    simp only [memberList, List.mem_cons, List.not_mem_nil, or_false] at hm
    subst hm
    exact ⟨t, ht⟩
  | .cons key value (.cons key' value' rest), h => by
    rw [MembersText] at h
    obtain ⟨a, k, b, c, t, d, u, -, -, -, -, -, ht, -, hu⟩ := h
    rw [memberList] at hm
    rcases List.mem_cons.mp hm with rfl | hm
    · exact ⟨t, ht⟩
    · exact memberText hu hm
end

theorem atoi_number {text : Str} (h : NumberText text) {n : Int} (ha : atoi text = some n) : WholeNumber n text := by
  have key : ∀ neg ds, parseDigits neg ds = some n → SomeDigits ds ∧ (n = if neg then -(undecimal ds : Int) else undecimal ds) ∧
      -2 ^ 63 ≤ n ∧ n < 2 ^ 63 := by
    intro neg ds hp
    unfold parseDigits at hp
    split at hp
    · rename_i hd
      have hsd : SomeDigits ds := by
        refine ⟨hd.1, fun c hc => ?_⟩
        have := List.all_eq_true.mp hd.2 c hc
        clear hc
        revert this
        revert c
        apply byte_forall
        decide +kernel
      simp only [undecimal_int ds hsd.2] at hp
      generalize hv : (if neg = true then -(undecimal ds : Int) else (undecimal ds : Int)) = v at hp ⊢
      by_cases hr : -9223372036854775808 ≤ v ∧ v ≤ 9223372036854775807
      · rw [if_pos hr] at hp
        injection hp with hp
        subst hp
        refine ⟨hsd, rfl, ?_, ?_⟩ <;> omega
      · rw [if_neg hr] at hp
        cases hp
    · cases hp
  unfold atoi at ha
  split at ha
  · rename_i t
    obtain ⟨h1, h2, h3, h4⟩ := key _ _ ha
    exact ⟨h3, h4, t, h1, .inr ⟨rfl, by simpa using h2⟩⟩
  · rename_i t
    obtain ⟨sign, whole, fraction, exponent, he, hs, hw, -, -⟩ := h
    exfalso
    have hw' : ∃ c u, whole = c :: u ∧ c ∈ b!"0123456789" := by
      rcases hw with rfl | ⟨⟨hne, hall⟩, -⟩
      · exact ⟨0x30, [], rfl, by decide⟩
      · obtain ⟨c, u, rfl⟩ := List.exists_cons_of_ne_nil hne
        exact ⟨c, u, rfl, hall c (by simp)⟩
    obtain ⟨c, u, rfl, hc⟩ := hw'
    simp only [List.mem_cons, List.not_mem_nil, or_false] at hs
    rcases hs with rfl | rfl
    · injection he with e1 _
      subst e1
      revert hc
      decide
    · injection he with e1 _
      revert e1
      decide
  · rename_i t
    obtain ⟨h1, h2, h3, h4⟩ := key _ _ ha
    exact ⟨h3, h4, text, h1, .inl ⟨rfl, by simpa using h2⟩⟩

theorem storeItems_wrong {items : JsonItems} (h : ∃ w ∈ itemList items, (∀ s, w ≠ .str s) ∧ w ≠ .null) (old : List Str) :
    (storeItems items old).2 = true :=
  match items, h with
  | .nil, h => by obtain ⟨w, hw, -⟩ := h; cases hw
  | .cons value rest, h => by
    obtain ⟨w, hw, h1, h2⟩ := h
    rw [itemList] at hw
    show ((storeString (old.headD []) value).2 || (storeItems rest old.tail).2) = true
    rcases List.mem_cons.mp hw with rfl | hw
    · have : (storeString (old.headD []) w).2 = true := by
        cases w with
        | str s => exact absurd rfl (h1 s)
        | null => exact absurd rfl h2
        | _ => rfl
      rw [this, Bool.true_or]
    · rw [storeItems_wrong ⟨w, hw, h1, h2⟩, Bool.or_true]

theorem storeConfigField_wrong {f : ConfigField} {v : JsonVal} (h : WrongValue f v) {t : Str} (ht : ValueText v t) (c : Config) :
    (storeConfigField f v c).2 = true := by
  cases f with
  | str o =>
    cases v with
    | str s => exact absurd rfl (h.1 s)
    | null => exact absurd rfl h.2
    | _ => rfl
  | list o =>
    cases v with
    | arr items => exact storeItems_wrong (h.1 items rfl) _
    | null => exact absurd rfl h.2
    | _ => rfl
  | int o =>
    cases v with
    | num text =>
      show (storeInt _ (.num text)).2 = true
      unfold storeInt
      cases ha : atoi text with
      | none => simp only [ha]
      | some n =>
        rw [ValueText] at ht
        exact absurd rfl (h.1 n text (atoi_number ht.2 ha))
    | null => exact absurd rfl h.2
    | _ => rfl
  | bool o =>
    cases v with
    | bool b => exact absurd rfl (h.1 b)
    | null => exact absurd rfl h.2
    | _ => rfl

/-- **C75** (wrong values) A file in which a setting has a value of a wrong kind, for example a number with a fraction, a number
out of range or a text instead of a list, is an error, as config file and as project file. -/
theorem C75_wrong_values_are_errors (fields : JsonMembers) (bytes : Str) (h : JsonText (.obj fields) bytes)
    (hn : nesting (.obj fields) ≤ 10000) (f : ConfigField) (v : JsonVal) (hm : (entryName f, v) ∈ memberList fields)
    (hw : WrongValue f v) (old : Config) : unmarshalConfig bytes old = none ∧ loadProject old bytes = none := by
  have ht : ∃ t, ValueText v t := by
    obtain ⟨a, t, b, -, -, ht, -⟩ := h
    rw [ValueText] at ht
    obtain ⟨inner, -, hi⟩ := ht
    exact memberText hi hm
  obtain ⟨t, ht⟩ := ht
  unfold unmarshalConfig loadProject
  rw [parseJson_text h hn]
  constructor
  · have : (storeStruct (configFields.map (·.1)) storeConfigName (.obj fields) old).2 = true := by
      show (storeMembers _ _ fields old).2 = _
      rw [storeMembers_list]
      refine storeList_error hm (structField_mem (entryName_mem f)) (fun x => ?_) old
      rw [storeConfigName_entry]
      exact storeConfigField_wrong hw ht x
    simp only
    rw [if_pos this]
  · have : (storeStruct projectNames storeProjectName (.obj fields) ⟨old, ⟨[], [], [], [], []⟩, [], []⟩).2 = true := by
      show (storeMembers _ _ fields _).2 = _
      rw [storeMembers_list]
      refine storeList_error hm (structField_mem ?_) (fun x => ?_) _
      · unfold projectNames; exact List.mem_append_left _ (entryName_mem f)
      · rw [storeProjectName_entry]
        exact storeConfigField_wrong hw ht _
    simp only
    rw [if_pos this]

/-- **C75** (cut off) A file that is cut off is an error. -/
theorem C75_cut_off_files_are_errors (fields : JsonMembers) (front back : Str) (h : JsonText (.obj fields) (front ++ back))
    (hn : nesting (.obj fields) ≤ 10000) (hb : ¬ Blank back) (old : Config) :
    unmarshalConfig front old = none ∧ loadProject old front = none := by
  unfold unmarshalConfig loadProject
  rw [parseJson_cut h hn hb]
  exact ⟨rfl, rfl⟩

/-- **C75** (errors end the program) With a config file or a project file that is an error no book is made: the program ends. -/
theorem C75_no_book_from_broken_files (m : Machine) (cwd : Str) (cli : Layer) (outputFile bytes : Str) :
    (unmarshalConfig bytes (defaultConfig m) = none → ∀ file projectFile,
      loadBook m cwd (some (file, bytes)) cli projectFile outputFile = .fatal) ∧
    (loadProject (defaultConfig m) bytes = none → ∀ configFile file book,
      loadBook m cwd configFile cli (file, bytes) outputFile ≠ .ok book) := by
  constructor
  · intro h file projectFile
    have hl : loadConfigBytes cwd file bytes (defaultConfig m) = .err := by
      unfold loadConfigBytes; rw [h]
    have : afterConfigBytes m cwd (some (file, bytes)) = .fatal := by
      unfold afterConfigBytes; simp only; rw [hl]
    unfold loadBook
    rw [this]
    rfl
  · intro h configFile file book hb
    unfold loadBook at hb
    cases ha : afterConfigBytes m cwd configFile with
    | ok cur =>
      rw [ha] at hb
      simp only [bind, Res.bind] at hb
      rw [h] at hb
      exact absurd hb (by simp)
    | err => rw [ha] at hb; exact absurd hb (by simp [bind, Res.bind])
    | panic => rw [ha] at hb; exact absurd hb (by simp [bind, Res.bind])
    | fatal => rw [ha] at hb; exact absurd hb (by simp [bind, Res.bind])

example : loadBook ⟨b!"/c", false, false⟩ b!"/w" (some (b!"c.json", b!"{\"cache-max-age\": 1.5}")) Layer.empty (b!"p.json", b!"{}") [] =
    .fatal :=
  (C75_no_book_from_broken_files _ _ _ _ _).1 (by
    have : (unmarshalConfig b!"{\"cache-max-age\": 1.5}" (defaultConfig ⟨b!"/c", false, false⟩)).isSome = false := by decide +kernel
    simpa using this) _ _

/-! ## Examples -/

theorem membersText_one {key k t : Str} {v : JsonVal} (hk : StringText key k) (hv : ValueText v t) :
    MembersText (.cons key v .nil) (k ++ b!":" ++ t) := by
  have hb : Blank [] := by intro c hc; cases hc
  rw [MembersText]
  exact ⟨[], k, [], [], t, [], by simp, hb, hk, hb, hb, hv, hb⟩

theorem membersText_cons {key key' k t u : Str} {v v' : JsonVal} {rest : JsonMembers} (hk : StringText key k) (hv : ValueText v t)
    (hu : MembersText (.cons key' v' rest) u) : MembersText (.cons key v (.cons key' v' rest)) (k ++ b!":" ++ t ++ b!"," ++ u) := by
  have hb : Blank [] := by intro c hc; cases hc
  rw [MembersText]
  exact ⟨[], k, [], [], t, [], u, by simp, hb, hk, hb, hb, hv, hb, hu⟩

theorem valueText_str {s : Str} (h : ∀ c ∈ s, 0x20 ≤ c ∧ c < 0x80 ∧ c ≠ 0x22 ∧ c ≠ 0x5C) (hs : (s.map UInt8.toNat).flatMap utf8 = s) :
    ValueText (.str s) (b!"\"" ++ s ++ b!"\"") := by
  rw [ValueText]
  exact stringText_ascii h hs

theorem jsonText_obj {fields : JsonMembers} {inner : Str} (h : MembersText fields inner) :
    JsonText (.obj fields) (b!"{" ++ inner ++ b!"}") := by
  have hb : Blank [] := by intro c hc; cases hc
  refine ⟨[], b!"{" ++ inner ++ b!"}", [], by simp, hb, ?_, hb⟩
  rw [ValueText]
  exact ⟨inner, rfl, h⟩

/-- The German Wikipedia and a table of contents with three levels. -/
def germanFile : JsonMembers :=
  .cons b!"wikipedia-instance" (.str b!"de") (.cons b!"comment" .null (.cons b!"toc-depth" (.num b!"3") .nil))

def germanLayer : Layer :=
  ⟨fun o => if o = .wikipediaInstance then some b!"de" else none, fun _ => none,
    fun o => if o = .tocDepth then some 3 else none, fun _ => none⟩

theorem german_text : JsonText (.obj germanFile) b!"{\"wikipedia-instance\":\"de\",\"comment\":null,\"toc-depth\":3}" := by
  refine jsonText_obj (inner := b!"\"wikipedia-instance\":\"de\",\"comment\":null,\"toc-depth\":3") ?_
  refine membersText_cons (k := b!"\"wikipedia-instance\"") (t := b!"\"de\"") (u := b!"\"comment\":null,\"toc-depth\":3")
    (stringText_ascii (by decide) (by decide)) (valueText_str (by decide) (by decide)) ?_
  refine membersText_cons (k := b!"\"comment\"") (t := b!"null") (u := b!"\"toc-depth\":3")
    (stringText_ascii (by decide) (by decide)) (by rw [ValueText]) ?_
  refine membersText_one (k := b!"\"toc-depth\"") (t := b!"3") (stringText_ascii (by decide) (by decide)) ?_
  rw [ValueText]
  exact ⟨rfl, [], b!"3", [], [], rfl, by decide, .inr ⟨⟨by decide, by decide⟩, by decide⟩, .inl rfl, .inl rfl⟩

instance (name other : Str) : Decidable (OtherName name other) := by unfold OtherName; infer_instance

theorem german_settings : Settings germanLayer germanFile := by
  intro field
  have none_of : ∀ name, (∀ k ∈ [b!"wikipedia-instance", b!"comment", b!"toc-depth"], OtherName name k) →
      ∀ m ∈ memberList germanFile, OtherName name m.1 := by
    intro name h m hm
    simp only [germanFile, memberList, List.mem_cons, List.not_mem_nil, or_false] at hm
    rcases hm with rfl | rfl | rfl
    · exact h _ (by decide)
    · exact h _ (by decide)
    · exact h _ (by decide)
  have one : ∀ (name : Str) (v : JsonVal) before after, memberList germanFile = before ++ (name, v) :: after →
      (∀ k ∈ (before ++ after).map (·.1), OtherName name k) → OneMember germanFile name v := fun name v before after e h =>
    ⟨before, after, e, fun m hm => h m.1 (List.mem_map_of_mem hm)⟩
  cases field with
  | str o =>
    cases o
    case wikipediaInstance => exact ⟨_, rfl, one _ _ [] [_, _] rfl (by decide)⟩
    all_goals exact none_of _ (by decide)
  | list o => cases o <;> exact none_of _ (by decide)
  | int o =>
    cases o
    case tocDepth =>
      exact ⟨_, ⟨b!"3", rfl, by decide, by decide, b!"3", ⟨by decide, by decide⟩, .inl ⟨rfl, by decide⟩⟩, one _ _ [_, _] [] rfl (by decide)⟩
    all_goals exact none_of _ (by decide)
  | bool o => cases o <;> exact none_of _ (by decide)

/-- What the program makes of the file. -/
example : ∃ c, unmarshalConfig b!"{\"wikipedia-instance\":\"de\",\"comment\":null,\"toc-depth\":3}" (defaultConfig aMachine) = some c ∧
    c.str .wikipediaInstance = b!"de" ∧ c.int .tocDepth = 3 ∧ c.list .filePrefixes = [b!"file", b!"image", b!"media"] ∧
    nesting (.obj germanFile) ≤ 10000 := by
  obtain ⟨c, h1, h2, h3, h4, -⟩ := C75_config_file germanLayer germanFile _ german_text (by decide) german_settings (defaultConfig aMachine)
  exact ⟨c, h1, h2 _, h4 _, h3 _, by decide⟩

/-- A project file with two articles. -/
def cityBook : JsonMembers :=
  .cons b!"metadata" (.obj (.cons b!"title" (.str b!"Cities") .nil)) (.cons b!"articles" (.arr (stringItems [b!"Rome", b!"Berlin"]))
    (.cons b!"output-file" (.str b!"cities.epub") .nil))

theorem city_text : JsonText (.obj cityBook)
    b!"{\"metadata\":{\"title\":\"Cities\"},\"articles\":[\"Rome\", \"Berlin\"],\"output-file\":\"cities.epub\"}" := by
  have hb : Blank [] := by intro c hc; cases hc
  refine jsonText_obj (inner := b!"\"metadata\":{\"title\":\"Cities\"},\"articles\":[\"Rome\", \"Berlin\"],\"output-file\":\"cities.epub\"") ?_
  refine membersText_cons (k := b!"\"metadata\"") (t := b!"{\"title\":\"Cities\"}")
    (u := b!"\"articles\":[\"Rome\", \"Berlin\"],\"output-file\":\"cities.epub\"") (stringText_ascii (by decide) (by decide)) ?_ ?_
  · rw [ValueText]
    exact ⟨b!"\"title\":\"Cities\"", rfl, membersText_one (k := b!"\"title\"") (t := b!"\"Cities\"")
      (stringText_ascii (by decide) (by decide)) (valueText_str (by decide) (by decide))⟩
  · refine membersText_cons (k := b!"\"articles\"") (t := b!"[\"Rome\", \"Berlin\"]") (u := b!"\"output-file\":\"cities.epub\"")
      (stringText_ascii (by decide) (by decide)) ?_ ?_
    · rw [ValueText]
      refine ⟨b!"\"Rome\", \"Berlin\"", rfl, ?_⟩
      show ItemsText (.cons (.str b!"Rome") (.cons (.str b!"Berlin") .nil)) _
      rw [ItemsText]
      refine ⟨[], b!"\"Rome\"", [], b!" \"Berlin\"", rfl, hb, valueText_str (by decide) (by decide), hb, ?_⟩
      rw [ItemsText]
      exact ⟨b!" ", b!"\"Berlin\"", [], rfl, by unfold Blank; decide, valueText_str (by decide) (by decide), hb⟩
    · exact membersText_one (k := b!"\"output-file\"") (t := b!"\"cities.epub\"") (stringText_ascii (by decide) (by decide))
        (valueText_str (by decide) (by decide))

theorem city_project : ProjectFile Layer.empty ⟨b!"Cities", [], [], [], []⟩ b!"cities.epub" [b!"Rome", b!"Berlin"] cityBook := by
  have none_of : ∀ name, (∀ k ∈ [b!"metadata", b!"articles", b!"output-file"], OtherName name k) →
      ∀ m ∈ memberList cityBook, OtherName name m.1 := by
    intro name h m hm
    simp only [cityBook, memberList, List.mem_cons, List.not_mem_nil, or_false] at hm
    rcases hm with rfl | rfl | rfl
    · exact h _ (by decide)
    · exact h _ (by decide)
    · exact h _ (by decide)
  have one : ∀ (name : Str) (v : JsonVal) before after, memberList cityBook = before ++ (name, v) :: after →
      (∀ k ∈ (before ++ after).map (·.1), OtherName name k) → OneMember cityBook name v := fun name v before after e h =>
    ⟨before, after, e, fun m hm => h m.1 (List.mem_map_of_mem hm)⟩
  refine ⟨?_, ⟨_, one _ _ [] [_, _] rfl (by decide), ?_⟩, .inl (one _ _ [_, _] [] rfl (by decide)), one _ _ [_] [_] rfl (by decide)⟩
  · intro field
    cases field with
    | str o => cases o <;> exact none_of _ (by decide)
    | list o => cases o <;> exact none_of _ (by decide)
    | int o => cases o <;> exact none_of _ (by decide)
    | bool o => cases o <;> exact none_of _ (by decide)
  · have other : ∀ name, OtherName name b!"title" → ∀ m ∈ memberList (.cons b!"title" (.str b!"Cities") .nil), OtherName name m.1 := by
      intro name h m hm
      simp only [memberList, List.mem_cons, List.not_mem_nil, or_false] at hm
      subst hm
      exact h
    exact ⟨.inl ⟨[], [], rfl, by simp⟩, .inr ⟨rfl, other _ (by decide)⟩, .inr ⟨rfl, other _ (by decide)⟩, .inr ⟨rfl, other _ (by decide)⟩,
      .inr ⟨rfl, other _ (by decide)⟩⟩

/-- The book of both files. -/
example : ∃ c p, loadBook aMachine b!"/w" (some (b!"c.json", b!"{\"wikipedia-instance\":\"de\",\"comment\":null,\"toc-depth\":3}")) Layer.empty
      (b!"cities.json", b!"{\"metadata\":{\"title\":\"Cities\"},\"articles\":[\"Rome\", \"Berlin\"],\"output-file\":\"cities.epub\"}") [] =
        .ok (c, p) ∧ p.articles = [b!"Rome", b!"Berlin"] ∧ p.outputFile = b!"/w/cities.epub" ∧ c.str .wikipediaInstance = b!"de" := by
  have h := loadBook_files (machine := aMachine) (cwd := b!"/w") (file := b!"c.json") (cli := Layer.empty) (projectFile := b!"cities.json")
    german_text (by decide) german_settings city_text (by decide) city_project []
  have hc : ∃ c, projectConfig ⟨aMachine, b!"/w", some (b!"c.json", germanLayer), Layer.empty⟩ b!"cities.json" Layer.empty = .ok c ∧
      c.str .wikipediaInstance = b!"de" := by
    have : (match projectConfig ⟨aMachine, b!"/w", some (b!"c.json", germanLayer), Layer.empty⟩ b!"cities.json" Layer.empty with
      | .ok c => decide (c.str .wikipediaInstance = b!"de") | _ => false) = true := by decide +kernel
    split at this
    · rename_i c hc; exact ⟨c, hc, of_decide_eq_true this⟩
    · cases this
  obtain ⟨c, hc, hde⟩ := hc
  rw [hc] at h
  exact ⟨c, _, h, rfl, by decide +kernel, hde⟩

/-- A number with a fraction. -/
example : unmarshalConfig b!"{\"toc-depth\":2.5}" (defaultConfig aMachine) = none ∧ WrongValue (.int .tocDepth) (.num b!"2.5") := by
  have hn : ¬ ∃ c, unmarshalConfig b!"{\"toc-depth\":2.5}" (defaultConfig aMachine) = some c := by
    have : (unmarshalConfig b!"{\"toc-depth\":2.5}" (defaultConfig aMachine)).isNone = true := by decide +kernel
    rintro ⟨c, hc⟩
    rw [hc] at this
    cases this
  refine ⟨?_, ?_, by simp⟩
  · cases h : unmarshalConfig b!"{\"toc-depth\":2.5}" (defaultConfig aMachine) with
    | none => rfl
    | some c => exact absurd ⟨c, h⟩ hn
  · rintro n text ⟨-, -, ds, hd, ⟨rfl, -⟩ | ⟨rfl, -⟩⟩ he
    · injection he with he
      subst he
      exact absurd (hd.2 0x2E (by decide)) (by decide)
    · injection he with he
      revert he
      simp

end Verif.Props
