# Does the model do what the program does?

The proofs in `../lean` are about a model that was written by hand. This folder compares the model with the expectations that the
repository contains for the program: the inputs and expected outputs of its unit tests and integration tests. Nothing here is a
proof, nothing here is part of the library `Verif`, and no claim in `MANIFEST.json` refers to it. The program itself is not run.

Run everything from `../lean` after `lake build` (`/repo` is the repository):

    sh ../conformance/run.sh

## Unit tests

`gotests.py` reads the Go unit tests of `src/parser` and `src/generator` as text and writes each of them as a Lean program, which
makes the same calls to the model and compares the results, the token map, the images and the error (`UnitHarness.lean.txt`).

- 160 tests; 144 of them with 440 comparisons can be taken over.
- 143 agree.
- One differs in one of its seven comparisons: `getListTokenKey("-")`. The function is called with `*`, `#`, `;` and `:` only; the
  model has no result for other characters.
- Not taken over: tests of unused code (`removeUnwantedHtml`), of helpers that the model contains in another form
  (`removeListPrefix`, `setToken`), of statistics (they use mocks of the file system), a text used as token and two tests in a
  form the script does not read.

## Integration tests

`Article.lean.txt` makes the page of each wikitext in `integration-tests` with `Model.articleHtml`, the configuration read from
`integration-tests/config.json` by `Model.unmarshalConfig`. `compare.py` compares it with the expected HTML, byte by byte; only the
pictures of formulas (name, size) are left out, because they come from a server.

| test | lines that differ |
| --- | --- |
| bold-italic, headings, images, references, table | 0 |
| generic | 0 (the answer for its one template is in `generic.templates`) |
| real-article-Erde (627 lines) | 0 |
| real-article-Sonne (857 lines) | 0; in 7 lines there is a template whose answer is not in the repository, any text may stand there |
| real-article-Schwarzes_Loch (831 lines) | 0; the same for 37 lines |

Functions that the model leaves open (`strings.ToLower`, upper case of the first letter) are those of Lean with the letters of
Latin-1.
