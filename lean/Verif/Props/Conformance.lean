import Verif.Model.Cli
import Verif.Spec.Files
/-!
# The repository's own tests, replayed on the model

Each `example` is a test of `/repo` evaluated by the kernel on the model, with hash maps iterating in
insertion order or in reverse.  These are not theorems about the code; they check that the model
computes what the authors' tests expect.
-/

namespace Chanoma

/-! ## `/repo/tests/neologdn.rs` -/

/-- All `assert_eq!(chanoma.normalize(input), expected)`. -/
def neologdnTests : List (Str × Str) := [
      (c! "abc", c! "abc"),
      (c! "０１２３４５６７８９", c! "0123456789"),
      (c! "ＡＢＣＤＥＦＧＨＩＪＫＬＭＮＯＰＱＲＳＴＵＶＷＸＹＺ", c! "ABCDEFGHIJKLMNOPQRSTUVWXYZ"),
      (c! "ａｂｃｄｅｆｇｈｉｊｋｌｍｎｏｐｑｒｓｔｕｖｗｘｙｚ", c! "abcdefghijklmnopqrstuvwxyz"),
      (c! "！”＃＄％＆’（）＊＋，－．／：；＜＞？＠［￥］＾＿｀｛｜｝", c! "!\"#$%&'()*+,-./:;<>?@[¥]^_`{|}"),
      (c! "＝。、・「」", c! "＝。、・「」"),
      (c! "ﾊﾝｶｸ", c! "ハンカク"),
      (c! "o₋o", c! "o-o"),
      (c! "majika━", c! "majikaー"),
      (c! "わ〰い", c! "わい"),
      (c! "スーパーーーー", c! "スーパー"),
      (c! "!#", c! "!#"),
      (c! "ゼンカク　スペース", c! "ゼンカクスペース"),
      (c! "お             お", c! "おお"),
      (c! "      おお", c! "おお"),
      (c! "おお      ", c! "おお"),
      (c! "Coding the Matrix", c! "Coding the Matrix"),
      (c! "南アルプスの　天然水　Ｓｐａｒｋｉｎｇ　Ｌｅｍｏｎ　レモン一絞り", c! "南アルプスの天然水Sparking Lemonレモン一絞り"),
      (c! "南アルプスの　天然水-　Ｓｐａｒｋｉｎｇ*　Ｌｅｍｏｎ+　レモン一絞り", c! "南アルプスの天然水-Sparking*Lemon+レモン一絞り"),
      (c! "あは゛れる　アハ゜ホテル", c! "あばれるアパホテル")]

/-- All `assert_eq!(chanoma.normalize_with_positions(input).text(), expected)`. -/
def neologdnPositionTests : List (Str × Str) := [
      (c! "abc", c! "abc"),
      (c! "０１２３４５６７８９", c! "0123456789"),
      (c! "ＡＢＣＤＥＦＧＨＩＪＫＬＭＮＯＰＱＲＳＴＵＶＷＸＹＺ", c! "ABCDEFGHIJKLMNOPQRSTUVWXYZ"),
      (c! "ａｂｃｄｅｆｇｈｉｊｋｌｍｎｏｐｑｒｓｔｕｖｗｘｙｚ", c! "abcdefghijklmnopqrstuvwxyz"),
      (c! "！”＃＄％＆’（）＊＋，－．／：；＜＞？＠［￥］＾＿｀｛｜｝", c! "!\"#$%&'()*+,-./:;<>?@[¥]^_`{|}"),
      (c! "＝。、・「」", c! "＝。、・「」"),
      (c! "ﾊﾝｶｸ", c! "ハンカク"),
      (c! "o₋o", c! "o-o"),
      (c! "majika━", c! "majikaー"),
      (c! "わ〰い", c! "わい"),
      (c! "スーパーーーー", c! "スーパー"),
      (c! "!#", c! "!#"),
      (c! "ゼンカク　スペース", c! "ゼンカクスペース"),
      (c! "お             お", c! "おお"),
      (c! "      おお", c! "おお"),
      (c! "おお      ", c! "おお"),
      (c! "検索 エンジン 自作 入門 を 買い ました!!!", c! "検索エンジン自作入門を買いました!!!"),
      (c! "アルゴリズム C", c! "アルゴリズムC"),
      (c! "　　　ＰＲＭＬ　　副　読　本　　　", c! "PRML副読本"),
      (c! "Coding the Matrix", c! "Coding the Matrix"),
      (c! "南アルプスの　天然水　Ｓｐａｒｋｉｎｇ　Ｌｅｍｏｎ　レモン一絞り", c! "南アルプスの天然水Sparking Lemonレモン一絞り"),
      (c! "南アルプスの　天然水-　Ｓｐａｒｋｉｎｇ*　Ｌｅｍｏｎ+　レモン一絞り", c! "南アルプスの天然水-Sparking*Lemon+レモン一絞り"),
      (c! "あは゛れる　アハ゜ホテル", c! "あばれるアパホテル")]

/-- Every test of the list passes for `f`. -/
def passes (tests : List (Str × Str)) (f : Str → Outcome Str) : Bool :=
  tests.all fun t => f t.1 == .ok t.2

example : (Chanoma.neologdn .insertion >>= fun c => .ok (
    passes neologdnTests (c.normalize (fun _ => .insertion) false) &&
    passes neologdnTests (c.normalize (fun _ => .reversed) false) &&
    passes neologdnTests (c.normalize (fun _ => .insertion) true) &&
    passes neologdnPositionTests (fun s =>
      c.normalizeWithPositions (fun _ => .insertion) s >>= fun r => r.text))) = .ok true := by
  decide +kernel

/-! ## `/repo/tests/chanoma.rs`, the example of `/repo/src/chanoma.rs:118-119` -/

example : (Chanoma.fromTable (TableBuilder.new.addCorr .insertion [⟨c! "z", c! "Z"⟩]).build >>=
    fun c => c.normalize (fun _ => .insertion) false (c! "abc")) = .ok (c! "abc") := by decide +kernel

example : (Chanoma.preset .insertion >>= fun c =>
    c.normalize (fun _ => .insertion) false (c! "ﾁｬﾉﾏ")) = .ok (c! "チャノマ") := by decide +kernel

/-- `/repo/src/chanoma.rs:138-139`. -/
example : (Chanoma.preset .insertion >>= fun c =>
    c.normalizeWithPositions (fun _ => .insertion) (c! "ﾁｬﾉﾏ") >>= fun r => r.text) =
    .ok (c! "チャノマ") := by decide +kernel

/-- `/repo/src/modifier.rs:66-73`: the comment (which is no documentation test) expects the empty text. -/
example : (ModifiedRecords.mk []).text = .panic := by decide +kernel

/-! ## `/repo/src/corr.rs:226-325` -/

example : corrAdd .reversed [⟨c! "a", c! "A"⟩] [⟨c! "b", c! "B"⟩] =
    [⟨c! "a", c! "A"⟩, ⟨c! "b", c! "B"⟩] := by decide +kernel
example : corrAdd .reversed [⟨c! "a", c! "A"⟩, ⟨c! "b", c! "B"⟩] [⟨c! "b", c! "B"⟩] =
    [⟨c! "a", c! "A"⟩, ⟨c! "b", c! "B"⟩] := by decide +kernel
example : corrSub [⟨c! "a", c! "A"⟩] [⟨c! "b", c! "B"⟩] = [⟨c! "a", c! "A"⟩] := by decide +kernel
example : corrSub [⟨c! "a", c! "A"⟩, ⟨c! "b", c! "B"⟩] [⟨c! "b", c! "B"⟩] =
    [⟨c! "a", c! "A"⟩] := by decide +kernel

/-! ## `/repo/src/file.rs:126-231` -/

/-- `items()` of the tests. -/
def fileTestItems : List Item :=
  [⟨c! "a", c! "A"⟩, ⟨c! "b", c! "B"⟩, ⟨c! "c", c! "C"⟩, ⟨c! "sea", c! "C"⟩, ⟨c! "see", c! "C"⟩]

/-- `/repo/tests/resources/test.yaml` as a YAML value. -/
def testYaml : YValue := .mapping [
  (.string (c! "items"), .mapping [
    (.string (c! "A"), .string (c! "a")),
    (.string (c! "B"), .string (c! "b")),
    (.string (c! "C"), .sequence [.string (c! "c"), .string (c! "sea"), .string (c! "see")])]),
  (.string (c! "modifiers"), .mapping [
    (.string (c! "character_converter"), .mapping [
      (.string (c! "D"), .string (c! "d")), (.string (c! "E"), .string (c! "e"))]),
    (.string (c! "character_eliminator"), .sequence [
      .string (c! "~"), .string (c! "∼"), .string (c! "∾"), .string (c! "〜"), .string (c! "〰"),
      .string (c! "～")]),
    (.string (c! "consecutive_character_reducer"), .string (c! "ー")),
    (.string (c! "dotted_space_eliminator"), .null),
    (.string (c! "trim"), .null),
    (.string (c! "ligature_translator"), .mapping [(.string (c! "ハ゜"), .string (c! "パ"))]),
    (.string (c! "neologdn"), .null)])]

/-- `/repo/tests/resources` and `/repo/bindings/python3/tests`. -/
def testWorld : World :=
  .ofFiles [
    (p! "tests/resources/test.csv", .text (c! "from,to\na,A\nb,B\nc,sea,see,C\n")),
    (p! "tests/resources/test.yaml", .text (c! "rust")),
    (p! "./tests/test.csv", .text (c! "from,to\nＡ,A\nＢ,B\nＣ,C\nＤ,D\nＥ,E\n")),
    (p! "/work/.chanomarc.csv", .text (c! "from,to\nＡ,A\nＢ,B\nＣ,C\nＤ,D\nＥ,E\n")),
    (p! "./tests/test.yaml", .text (c! "python"))]
  (yaml := fun s => if s = strBytes (c! "rust") then some testYaml else some (.mapping [
    (.string (c! "items"), .mapping [
      (.string (c! "A"), .string (c! "Ａ")), (.string (c! "B"), .string (c! "Ｂ")),
      (.string (c! "C"), .string (c! "Ｃ")), (.string (c! "D"), .string (c! "Ｄ")),
      (.string (c! "E"), .string (c! "Ｅ"))])]))

example : (tableFromCsvPath testWorld (p! "tests/resources/test.csv") >>= fun t => .ok t.corr) =
    .ok fileTestItems := by decide +kernel
example : tableFromCsvPath testWorld (p! "./nonexistent.file") = .err .csvFileLoad := by decide +kernel
example : toCsvWriter fileTestItems = c! "a,A\nb,B\nc,sea,see,C\n" := by decide +kernel
example : (tableFromYamlPath testWorld (p! "tests/resources/test.yaml") >>= fun t => .ok t.corr) =
    .ok fileTestItems := by decide +kernel
example : tableFromYamlPath testWorld (p! "./nonexistent.file") = .err .io := by decide +kernel

example : modifiersFromYamlPath .insertion testWorld (p! "tests/resources/test.yaml") =
    (Neologdn.new .insertion >>= fun n => .ok [
      .characterConverter ⟨[('D', 'd'), ('E', 'e')]⟩,
      .characterEliminator ⟨['~', '∼', '∾', '〜', '〰', '～']⟩,
      .consecutiveCharacterReducer ⟨'ー'⟩,
      .dottedSpaceEliminator,
      .trim,
      .ligatureTranslator ⟨[(c! "ハ゜", c! "パ")]⟩,
      .neologdn n]) := by decide +kernel

/-! ## `/repo/src/configuration.rs:164-296` -/

example : Configuration.validFilePath testWorld (p! "tests/resources/test.csv") =
    .ok [p! "tests/resources/test.csv"] := by decide +kernel
example : Configuration.autoLoadDirs testWorld =
    [p! "/home/u/.config/chanoma", p! "/home/u", p! "/work"] := by decide +kernel
example : Configuration.autoLoadPathsFromDir (p! "./") =
    [p! "./chanomarc.csv", p! "./chanomarc.yaml", p! "./.chanomarc.csv", p! "./.chanomarc.yaml"] := by
  decide +kernel
example : Configuration.existsFilePaths testWorld [p! "/--------a--------/"]
    (fun d => [pathPush d (p! "test.csv")]) = [] := by decide +kernel
example : Configuration.existsFilePaths testWorld [p! "src"]
    (fun d => [pathPush d (p! "test.csv")]) = [] := by decide +kernel
example : Configuration.existsFilePaths testWorld [p! "tests/resources"]
    (fun d => [pathPush d (p! "test.csv")]) = [p! "tests/resources/test.csv"] := by decide +kernel

/-! ## `/repo/bindings/python3/tests` -/

example : (pyChanomaNew .insertion testWorld {} >>= fun c =>
    pyNormalize c (fun _ => .insertion) (c! "ＡＢＣＤＥ")) = .ok (c! "ＡＢＣＤＥ") := by decide +kernel
example : (pyChanomaNew .insertion { testWorld with chanomarc := some (p! "./tests/test.csv") }
    { rc := true } >>= fun c =>
    pyNormalize c (fun _ => .insertion) (c! "ＡＢＣＤＥ")) = .ok (c! "ABCDE") := by decide +kernel
example : (pyChanomaNew .insertion testWorld { rc := true } >>= fun c =>
    pyNormalize c (fun _ => .insertion) (c! "ＡＢＣＤＥ")) = .ok (c! "ABCDE") := by decide +kernel

/-- `Chanoma(table=table).normalize("ＡＢＣＤＥ")`. -/
def pyTableTest (table : Outcome Table) : Outcome Str := do
  let t ← table
  let c ← pyChanomaNew .insertion testWorld { table := some t }
  pyNormalize c (fun _ => .insertion) (c! "ＡＢＣＤＥ")

example : pyTableTest (pyTableNew .insertion testWorld false none none) = .ok (c! "ＡＢＣＤＥ") := by
  decide +kernel
example : pyTableTest (pyTableNew .insertion testWorld true none none) = .ok (c! "ABCDE") := by
  decide +kernel
example : pyTableTest (pyTableNew .insertion testWorld false (some (c! "./tests/test.csv")) none) =
    .ok (c! "ABCDE") := by decide +kernel
example : pyTableTest (pyTableNew .insertion testWorld false none (some (c! "./tests/test.yaml"))) =
    .ok (c! "ABCDE") := by decide +kernel
example : pyTableTest (pyTableNew .insertion testWorld false none none >>= fun t =>
    .ok (pyTableAdd .insertion t (PyCharactersSet.alphabets.items .insertion))) =
    .ok (c! "ABCDE") := by decide +kernel
example : pyTableTest (pyTableNew .insertion testWorld false none none >>= fun t =>
    .ok (pyTableAdd .insertion t [⟨c! "Ａ", c! "A"⟩, ⟨c! "Ｂ", c! "B"⟩, ⟨c! "Ｃ", c! "C"⟩,
      ⟨c! "Ｄ", c! "D"⟩, ⟨c! "Ｅ", c! "E"⟩])) = .ok (c! "ABCDE") := by decide +kernel

/-! ## `/repo/src/file_extension.rs:44-45`, `/repo/README.md:17` -/

example : FileExtension.fromPath (p! "/path/to/foo.csv") = .ok .csv := by decide +kernel
example : cliMain .insertion (fun _ => .insertion) (.ofFiles [])
    ⟨some (c! "ﾊﾝｶｸｶﾅは全角カタカナに変換されます"), false, true, false⟩ (.ok []) =
    .ok (c! "ハンカクカナは全角カタカナに変換されます\n") := by decide +kernel

end Chanoma
