# Formal model of wiki2book

Subject: the Go sources in /repo/src (pinned commit). The model is written in Lean 4 (`lean/Verif`); the theorems hold for
all inputs, states and executions. Where the code does not have a property, the negation is proved with a concrete witness,
and the property itself is proved under the weakest hypothesis found that excludes the witnesses (suffix `_partial`).

## Layout

* `lean/Verif/Go/*` – the parts of the Go standard library that the code uses (byte strings, `strings`, `strconv`,
  `path/filepath`, `net/url`).
* `lean/Verif/Model/*` – the code of wiki2book, function by function; every definition cites file and lines.
* `lean/Verif/Spec/*` – small specifications, independent of the model. A specification never uses the function it specifies.
* `lean/Verif/Lemmas/*` – helper lemmas, not meant to be read.
* `lean/Verif/Props/*` – the property theorems (named `Cxx_…`), each with an example that meets its hypotheses.
* `properties.jsonl` – the properties in English; `MANIFEST.json` – the theorems of each property.
* `conformance/*` – a comparison of the model with the expected results of the unit tests and integration tests in the
  repository (scripts and results; not proofs).
* `seeded/LOG.jsonl` – the wrong programs that the theorems were tested with.

## Trusted base

* The kernel of Lean 4.33.0 and the axioms `propext`, `Classical.choice` and `Quot.sound` (see the last section for each
  theorem). There are no own axioms, no `sorry`, no `native_decide`, no `bv_decide`. `decide +kernel` only uses the kernel.
* That the definitions in `Verif/Go` and `Verif/Model` say the same as the Go code. This translation is by hand; each
  definition says where it is simplified. It was compared with the expectations in the repository (`conformance/README.md`): the
  calls and results of 144 unit tests of the parser and the generator (143 agree; one calls a function with an argument that the
  program never uses) and the HTML of the nine integration tests, three of them real articles (no differences; pictures of
  formulas and answers for unknown templates left out).
* That the specifications in `Verif/Spec` and the statements in `Verif/Props` say the same as the English properties.
* The Go compiler, its runtime and the operating system.

## Conventions

* Go strings are byte strings: `Str = List UInt8`. Slicing, `len` and comparison are exact, also for invalid UTF-8.
* A Go panic (index or slice out of range, nil dereference), a returned error and `log.Fatal` are explicit results (`Res`).
* Functions that may not terminate get a number of steps (`fuel`) and return `none` if it does not suffice. Theorems say that
  there is a number of steps such that all larger ones have the same result, or that no number suffices. A theorem about
  "every number of steps" that only concerns finished executions is about all executions.
* Slices are lists, maps are association lists or functions. The random order of a loop over a map is a universally
  quantified permutation.
* Goroutines, channels and locks are small-step state machines; theorems quantify over all interleavings.
* The file system is a finite map from paths to files (content, size, times). Each call may fail, and the process may be
  killed between any two calls.
* Network, image tools, pandoc, the clock, random file names and `strings.ToLower` on non-ASCII text are parameters
  over which the theorems quantify.
* The sums SHA-1 and MD5 are parameters as well in most theorems; `Go/Digest.lean` has both functions, and C79 shows that they
  meet what the theorems demand of them. That no two texts have the same sum is never assumed without saying so.
* Regular expressions are translated by hand to matchers for the single expression (leftmost match, greedy or not).
* Integers are unbounded; Go's `int` has 64 bits. Texts and counters stay far below this limit.
* Log output is not modelled.

## Tests with wrong programs

`seeded/LOG.jsonl` has one line for each edit of a model definition after which everything was built again. `failed` names the
declarations whose proofs failed. This needs care: if only a declaration of `Verif/Lemmas` failed, the build stopped there, and
this alone does not show that the *statement* of the property became false, because lemmas describe the model in more detail
than the properties and may fail for harmless edits as well. Such lines are evidence that a proof depends on the edited place,
not that the property detects the edit. Lines with the field `refuted` are stronger: they name a concrete instance of the
statement of a property that is false for the edited program.
Of the first 305 attempts, 194 name only lemmas and 18 name nothing: 4 survived because no theorem spoke about the place (new
theorems were added), 13 were built before the theorems about the configuration were imported, and 1 did not compile. These 18
edits were repeated.
The edits that had made only lemmas fail were then checked again by evaluating concrete instances of the property statements on
the edited program: 366 lines have the field `refuted`, in 352 of them an instance is false, in 14 none is (these edits are
equivalent or the claim of another line covers them; the note says that this shows nothing). The instances use one large
number of steps where a theorem says "from some number of steps on", and except for C37 the hypotheses of the
theorems were checked for the instances by reading, not mechanically. Gaps found in this way led to `C01_no_temp_file_left`,
`C33_only_empty_sections_removed`, `C33_bold_last_line_survives`, the exact form of `C40_rest_unchanged`,
`C34_headings_are_parsed` and `C39_failed_template_is_an_error`.


## Properties

| id | property | status | how it is modelled and proved |
|---|---|---|---|
| C01 | Cache writes are crash-atomic | proved | File system as finite map from paths to files; `CacheToFile` as sequence of file-system calls with one step per copied chunk, each of which may fail; invariant over every prefix of the execution (a crash stops after any prefix). *All fault patterns of the file system, all crash points.* |
| C02 | The cache never outgrows its size limit | proved | Sequential model of the cache (writes, lookups, kills); invariant by induction over the history. *Histories of complete, failed and killed writes and lookups.* |
| C03 | Eviction always terminates and evicts nothing needlessly | proved | Eviction loop on the set of evictable files; decreasing number of files; each deletion has its justification. *'fits' counts the new file twice, as the code does (see C05).* |
| C04 | Eviction follows the configured order | proved | `FindLargestFile` and `FindLruFile` as folds over an arbitrary order of the walk; maximality and minimality of each deleted file. |
| C05 | A file that fits into the cache can be stored | partial | Refuted by a witness (the temporary file is counted as well); theorem with the exact bound that suffices. *False of the code: files of at least half of the limit are never stored; proved for smaller files.* |
| C06 | Without an eviction strategy the cache never loses a file | proved | Frame theorem on the model of `CacheToFile`. |
| C07 | Cache lookups honour the maximum age | proved | Full characterisation of `GetFile` (result and state behind it). |
| C08 | What was cached is what is read later | proved | Refinement of the cache to an abstract map with loss of entries, by induction over the history. *Killed writes may or may not have happened.* |
| C09 | Distinct cache keys never share a file and never leave their folder | proved | Byte-level model of `SanitizeFilename` and `filepath.Join`/`Clean`; injectivity by a decoder. |
| C10 | File name sanitising is lossless and safe | proved | Successive replacements are equal to an encoding of each byte; decoder; acceptance by the check. |
| C11 | The sanitised-path check rejects every unsafe path | partial | The part about forbidden characters is proved, the part about percent signs refuted. *The percent part is false of the code, shown by a witness.* |
| C12 | Paths written into HTML lead to the cached file | proved | Model of `filepath.Clean`, `Join` and `Rel` on unix; round trip. |
| C13 | Downloads are served from the cache and failures are never cached | proved | `DownloadAndCache` over the cache model with an arbitrary script of server answers. *Server answers are an arbitrary script; the last theorem allows all failures of the file system.* |
| C14 | Rate-limited requests are repeated until answered | proved | `doRequest` as recursion over the answers; number of requests, waiting times and result. |
| C15 | A repeated POST request carries the same form data | partial | Body of a request as a reader that is consumed; refuted for POST, proved for GET. *False of the code for POST: repeated requests have an empty body; proved for GET.* |
| C16 | Images are taken from the first source that has them | proved | Loop over the hosts; characterisation by the first success. *For non-empty lists of hosts.* |
| C17 | Image references in the HTML name the downloaded file | partial | Names computed by parser, downloader and generator; equality. *For names without colon and space; false for names with a colon (witness).* |
| C18 | An article is taken from the requested wiki | partial | Refuted by a witness; partial for articles that are not in the cache. *False of the code: the cache key has no host; proved for articles that are not in the cache.* |
| C19 | Parallel generation keeps the order of the articles | proved | Small-step state machine (bounded channel, workers, slots); invariant, decreasing measure, progress. *Small-step model, all interleavings.* |
| C20 | Every article of the project contributes its file to the book | partial | Refuted by witnesses; partial for distinct articles that are generated. *False of the code for repeated articles and for present HTML files; proved otherwise.* |
| C21 | Concurrent cache use is linearizable and returned files exist | partial | State machine with the lock; every execution equals a sequential one in the order of the lock. *Linearizability and completeness of files proved; that a returned file can be read is false with an eviction strategy, proved without.* |
| C22 | Configuration layers override each other in the documented order | partial | Merge function over the record of all options; one law for every option. *False of the code: a value equal to the default does not override a lower layer; proved for all other values, for every option.* |
| C23 | Only valid configurations are used | partial | Predicate for valid configurations equals the documented ranges; table of drivers. *The check accepts exactly the documented configurations and nothing else is used; a documented combination spread over several layers can be rejected.* |
| C24 | List options differing from the default are recognised | partial | Exact characterisation of the comparison. *False of the code for lists with repeated elements.* |
| C25 | Paths in the config file are relative to the config file | partial | Model of paths; theorem for each option with a path. *False of the code for absolute font files; proved for all other paths.* |
| C26 | Closing tokens are matched with respect to nesting | proved | Model of the scanner; inductive specification of balanced texts; soundness and completeness. |
| C27 | Tokens are never confused | proved | Keys have an injective format; invariant over all steps of the whole tokenizer. *For every wikitext, configuration and number of steps of the whole tokenizer.* |
| C28 | Expansion replaces every token in place and loses no text | partial | Model of `expandString`; equation for texts with tokens in any nesting; error for unknown keys. *For all texts and token maps, any nesting, except for texts with doubled dollar signs (see C29); false of the code for links with an unknown protocol, whose text is lost.* |
| C29 | Article text containing dollar signs does not break the generation | partial | Refuted by witnesses; partial for texts without doubled dollar signs. *False of the code for doubled dollar signs and for a dollar sign directly before an element; proved for all other texts.* |
| C30 | Bold and italic markup is well-formed and loses no text | proved | Model of the search with backtracking; nesting as invariant; the text without markers is the text without the apostrophes; style of every character for written documents. *For every text; for texts with runs of 2, 3 and 5 apostrophes in which all sections are closed, also the style of every character; text behind a section that is not closed stays as it is.* |
| C31 | Only comments are removed as comments | partial | Model based on `strings.Split`, related to an inductive specification of comments. *False of the code for a comment at the beginning of a line with text after it and for <!-->; proved otherwise.* |
| C32 | Cleaning lists removes only empty entries | proved | Filter of lines; idempotence. |
| C33 | Removing empty sections never removes text | partial | Model of the walk over sections; text lines are kept; characterisation of removed headings. *Text and headings with text survive for all inputs; false of the code: sections with only empty subsections stay, lines that begin and end in bold count as headings and can be removed.* |
| C34 | Headings keep their level and text | partial | Headings of arbitrary documents; tokens with level and text. *False of the code for a heading whose text contains its own marker; proved for all other headings (levels 1 to 7) and lines.* |
| C35 | Lists keep their items, order and nesting | partial | Inductive type of list trees with a renderer; parsing a rendered list gives the list. *Proved for all nested lists of any depth and width, all four kinds; false of the code for items whose text begins with a list character behind a space: they become a list.* |
| C36 | Tables keep their rows and cells | partial | Inductive type of tables (captions, attributes, cells over several lines, nested tables) with a renderer; parsing a rendered table gives the table; no crash. *Proved for all tables of any size with captions, attributes, cells over several lines and tables nested to any depth; false of the code for the tables of the counterexamples: negative numbers behind a separator, headings with two lines or separated by bars, alignments without a semicolon, cells with two bars, an indented end of the table.* |
| C37 | References are numbered consistently | partial | Items of a document (definitions, uses, lists of references) with a renderer; the numbers are specified by the order of first mention; the loop computes them. *Proved for all sequences of definitions, uses and lists of references with groups; numbers are consistent within each group, references of different groups may have the same number; false of the code for references without definition or list (no entry) and for a tag directly behind the start of a list or an empty list (the program crashes).* |
| C38 | nowiki content is kept verbatim | partial | Model of the scanner for nowiki; texts with closed tags. From the wikitext to the page: lines as lists of texts and elements, with elements written, as keys or as contents; the text around the elements has no markup. *False of the code for unclosed tags (crash), opening brackets of links within nowiki (crash), and comments and templates within nowiki; the parsing step is proved for all texts with closed tags, and from the wikitext to the page for paragraphs of text with any number of elements; tags within nowiki are not escaped (C57).* |
| C39 | Templates are evaluated inside out independent of map order | partial | Inductive type of texts with nested templates; the loop sends each of them once; the replacement of placeholders is confluent (count of placeholders that are still to be replaced as measure). A failing template is an error of the whole text. For texts with stray braces an invariant of the search: the text consists of characters and placeholders with answers, placeholders in answers lead to answers of lower rank. *Proved for all texts with closed templates of any nesting and all iteration orders, if the hashes of the templates of the text differ; for all other texts (braces that do not belong to templates) the answers are filled in for the templates that were found, if the result does not spell a placeholder; false of the code for a text that contains the beginning of a placeholder (the program never ends); an unterminated template makes the whole article fail.* |
| C40 | Ignored and trailing templates | partial | Inductive type of texts with nested templates; specification which of them stay. *False of the code: names that only begin with a configured name are removed, arguments of trailing templates are lost; proved otherwise for all properly nested texts.* |
| C41 | Only unwanted links are removed | partial | Inductive type of texts with nested links; specification which of them stay. *False of the code for a colon in the text of a link, for links to articles with a colon in their title (they vanish with their text) and for unclosed links (crash); proved for all properly nested texts otherwise.* |
| C42 | Links keep target and text | partial | Texts with any number of links; tokens with target and text. *False of the code for links without name and text (crash); proved for all texts with any number of closed links; brackets that are not closed get closed.* |
| C43 | Statistics of a book are the sums over its articles | proved | Sums over the articles; invariance under permutations. *Numbers are unbounded; the shortened list of links out of the book is not determined by the articles when links have equal counts, it depends on the order in which Go visits a map.* |
| C44 | Escaped image paths are decoded to the original | partial | Model of `url.QueryEscape` and of a decoder for paths. *False for paths with a space; image names from the parser have none.* |
| C45 | The e-book is generated from the articles in order with the configured options | proved | Argument list for pandoc, read back by a specification of pandoc's arguments; calls of the library for the other driver. *Paths of articles must not begin with a hyphen, which holds for absolute paths; how pandoc reads its arguments is a specification of its own (Spec/Pandoc.lean).* |
| C46 | External commands get the right arguments | partial | Substitution and `strings.Split`; witnesses. *False for paths with a space or the text {OUTPUT}.* |
| C47 | Text without markup passes unchanged | proved | The whole way from wikitext to HTML (`articleHtml`: cleaning, templates, cleaning, tokenizer, generator); every step is the identity on lines without markup, paragraphs are marked. *For all texts of paragraphs whose lines have no markup (Spec/PlainText.lean says which characters are allowed where), from the wikitext to the text of the HTML file.* |
| C48 | Paths on the command line are relative to the start folder | partial | Model of paths and of the commands. *False of the code for the command project, proved for article and standalone.* |
| C49 | Requests name exactly what is asked for | proved | Specification of the requests; every request that is sent meets it. *Repetitions of the POST request are covered by C15.* |
| C50 | A formula is sent to the server only once | proved | Model of the services for formulas over the cache. |
| C51 | No answer of a server crashes the program | partial | Model of the services with arbitrary answers; no step panics. *False of the code for images: a title without colon crashes; proved for articles, templates, formulas and for images with proper titles; strategy largest excluded (see C05).* |
| C52 | Converted pictures belong to the downloaded picture | partial | Model of the conversion over the cache. *False of the code: an existing PNG is kept when the picture is downloaded again; proved for the first conversion.* |
| C53 | Article text is never mistaken for an internal key | partial | Model of parser and generator; witness with an endless recursion. *False of the code, with an endless recursion as witness; texts without doubled dollar signs are shown as they are.* |
| C54 | Paragraphs are separated exactly where the author separated them | proved | Blocks of an article with empty lines between them; the marked lines are specified. |
| C55 | With the internal driver each article is one section with the article's title | partial | Model of the driver that uses the Go library. *False of the code for articles with a heading of the first level: the title of the section contains the text up to this heading; proved for all other articles.* |
| C56 | The statistics of an article count what is in the article | partial | Events (words, images, …) of an article, specified on the tokens; the expansion counts exactly them. *False of the code: lists within lists and the text of nowiki sections are not counted, and articles in Japanese and Swedish get the average reading speed since the program looks for wrong language codes; proved for articles without these; words are counted within each text between tokens.* |
| C57 | Every element of an article becomes the corresponding, properly nested HTML element | partial | HTML as a sequence of tags and texts; the document of each token is specified separately (Spec/Html.lean); induction over the nesting of tokens. *Proved for all token maps and any nesting of elements, up to white space between tags; HTML tags within the wikitext must be closed in the same piece of text; false of the code for tags in nowiki, which are not escaped.* |
| C58 | Every image that the book shows has been downloaded | partial | Invariant of the whole parser: each token of an image has a file name that is in the list of images; composed with the download over the cache and the paths of the generator. *The first part is proved for all articles; the existence of the files for names without colon and caches without eviction; false of the code with an eviction strategy: an image of an article can evict another one of the same article, and for names with a colon.* |
| C59 | An article with headings, paragraphs, lists, tables, images, formulas, references, links and bold and italic text becomes exactly the corresponding HTML | partial | Inductive type of articles (Spec/Document.lean) with a renderer for wikitext and one for HTML. Tables are the tables of C36 with texts of articles in the cells. References are numbered and listed as in C37; the parser makes one line per reference out of a list, so the proof splits lists of references into lists with one entry. Lines are sequences of atoms (text, links, images, formulas, references, markers, tokens); each pass of the tokenizer is shown to replace atoms by tokens whose expansion is the HTML of what they replace. *Proved for all such articles from the wikitext to the text of the HTML file (Spec/Document.lean says which characters are allowed where; links have no prefix because of which they are removed, see C41 and C68; HTML tags in texts other than those the parser searches for, for example <br /> and <sup>, are kept as they are, but in captions and texts of references there are none; captions of images contain text and links, texts of references text, links and web links, there are no references in headings, a list of references is not empty and is written as one tag in a line of its own, the text of a cell is in one line, the article begins with a block and may end with empty lines, but not behind a heading, the path of an image file is the one that C58 is about, and the formulas are ones that can be rendered); false of the code for lines of a paragraph that are a single link (the paragraph is joined with its neighbours) and for paragraphs that are bold as a whole (can be removed as empty sections).* |
| C60 | Images, galleries and image maps are recognised with their file, size and caption | partial | Grammar of images, options, galleries and image maps (Spec/WikiImages.lean) with what each of them is to become as a program over the tokens; induction over the loop of the parser with the text in front generalised. *Proved for all texts with images whose captions are not read as options (Spec/WikiImages.lean); false of the code for captions that begin with mini or thumb or end with px, for galleries with such words anywhere in a line, for image maps at the end of the text or with an unwanted file type (crash) and for configurations without the prefix file (no images at all).* |
| C61 | Reading an article comes to an end | partial | Each pass is shown to end and either to leave the text as it is or to lower a measure: number of characters of markup, then unclosed brackets, then empty lines (lexicographic order). Calls of the tokenizer on parts of the text have a lower measure. The number of steps is generalised to two numbers, so that nested calls can be given different ones. *Tokenizer, cleaning and the search for templates end on every text, if converting the first letter to upper case creates no characters of the markup and hashes contain no braces; the whole way from the wikitext ends for all articles without braces and dollar signs, and for the others if the name of the placeholders occurs neither in the article nor in the answers (except for placeholders of the request) nor in the result and no two templates have the same hash; without that it need not end (C39); the generator is not part of this property (C53).* |
| C62 | What the parser has read becomes a page | partial | Invariant `Whole`: a text is a sequence of other characters, of harmless words and of complete keys of stored tokens, and no proper part of a key or word can be cut out by a pass, because each search text of the passes begins and ends with a character that neither keys nor words have. Every pass keeps it; with it, the generator ends by induction over the tokens, each of which only refers to earlier ones. That ignored media types play no role without images is shown by comparing two runs of the tokenizer (`Follows`). *Proved for all texts in which no image is found and that cannot be confused with internal markers: words with an underscore (or with another character that all markers have) or a dollar sign are not parts of markers, and no word has two dollar signs in a row or one at its end; for whole articles also without templates and dollar signs. False with images: a bracket in a caption makes the parser cut the key of the token behind the image, which crashes the generator.* |
| C63 | Formulas are rendered as they are written | partial | Follows from C59: a formula is an atom whose text no earlier pass changes, since it contains none of the search texts of these passes; the witnesses are texts of formulas that contain one. *Proved from the wikitext to the page for one formula in a text (and by C59 for any number of formulas anywhere in an article) if the formula contains no line break, square bracket, tag or dollar sign and no doubled apostrophe, brace or underscore; false for doubled apostrophes (internal markers for italic text are put into the formula), doubled brackets (internal keys) and behind an empty tag.* |
| C64 | SVG files with a relative size get the size of their view box | partial | SVG files as a list of attributes with text before and after (Spec/Svg.lean) and a renderer; the search for each attribute is shown to find its only place. *Proved for all files whose width is relative and which contain no earlier text that looks like one of the attributes; false of the code for absolute sizes (they are replaced, since a negation is missing in the condition), for a relative height with an absolute width (nothing happens), for attributes such as stroke-width in front (they are replaced instead) and for a comma with a space in the viewBox; the XML decoder is a parameter.* |
| C65 | The output is where the user wants it | partial | Disk as a function from paths to files and folders (Model/Output.lean); wanted place by walking along the path (Spec/Config.lean); what was there stays and nothing but the file and the folders above it is new. *Proved for all paths that are no absolute paths with a slash at the end of a missing folder, and, for statistics, end with json or txt; false of the code otherwise: statistics with another name (or a folder) go to ./stats.json or ./stats.txt; a missing folder with a slash at its end leads to an error in the first run (absolute) or to a file of this name (relative); a project without an output file fails. Permissions and symbolic links are not modelled.* |
| C66 | The text report names the right numbers, articles and links | proved | The report as a list of lines; follows from the sums of C43 and the properties of sorting. *For all orders of maps and of elements with equal numbers; numbers are unbounded integers in the model.* |
| C67 | The book contains the pages of all articles | partial | Threads and files as one transition system (Model/Book.lean); each execution is projected to one of the worker pool (C19) and the pages already written are an invariant (C06); composition with C59, C45 and C55. Executions are constructed by induction over the articles; with eviction the size of the cache (C02) contradicts that all pages are there. *Proved for all runs without an eviction strategy in which the articles differ and HTML files of earlier runs are not used; together with C59, C45 and C55 from the wikitext to what pandoc or the EPUB library gets; false of the code with an eviction strategy: whenever the pages together reach the limit of the cache, there is a run that generates the book although the page of an article has been deleted; calls of the cache are atomic (C21).* |
| C68 | What is not shown leaves no trace in the article | partial | Articles as lists of shown and hidden parts (Spec/Hidden.lean); each pass of the cleaner is shown to remove exactly the parts of its kind by induction over the parts, with the scanners of links and templates crossing what is kept; what is left are the written lines of C59, from which the pass over lists and trimming, and the pass over sections (a section without text that is added never makes another one empty), restore the source of the document; then the theorem of C59. *Proved for all articles of the grammar of C59 with hidden parts of all kinds at all places, with these exceptions: a comment at the beginning of a line has to be followed by the end of the line (false of the code otherwise, see C31_joins_lines), brackets in front of a removed link or template are closed, sections that consist of empty subsections keep their heading (false of the code otherwise, see C33_nested_empty_sections), trailing templates are the subject of C69.* |
| C69 | Templates in articles are replaced by what the wiki answers | partial | Composition of the passes: comments and links as in C68, templates by C40, lines and sections by C32 and C33, evaluation by the invariant of C39 for any resolved text, the second cleaning by C68, the rest by C59. *Proved for articles whose text with the answers is in the grammar of C59 with hidden parts (C68); the article itself has no railway tables of the German Wikipedia, and the exceptions of C31, C33, C39, C40 and C41 apply (comments at the beginning of a line with text, text TEMPLATE_PLACEHOLDER_, arguments of trailing templates, colons in labels).* |
| C70 | Image files are asked for where the wiki stores them | proved | All actions of the download after the page are collected; the address is split at the slashes and its last part decoded; the regular expression for hosts is compared with its meaning. *The checksum is a parameter (hexadecimal digits); the page of the image is asked for as C49 says; the names of the image and of its page contain no further colon (see C58 for names with a colon).* |
| C71 | The picture of a formula shows this formula, in its size | proved | A successful run is taken apart into the question for the id, the downloads and the program; each download is either a hit or a stored answer and leaves other entries alone or evicts them. *The XML decoder and the checksum are parameters; a converter that reports success is assumed to have written its output file; files with references to namespaces are decoded as C64 says, the arguments of the program for paths with spaces are torn as C46 says, and the id contains no space (C44).* |
| C72 | The statistics file is valid JSON with the sums over all articles, whatever the articles are called | proved | A writer (Go/Json.lean, after encoding/json) and an independent reader (Spec/Json.lean) for JSON; a written value is read back, by induction over the depth, with UTF-8 encoded and decoded by arithmetic; the program reads with the model of json.Unmarshal of C74 and C75; keys of maps are sorted, which makes the file independent of the order of maps; then the sums of C43. *Names are valid UTF-8 and numbers fit in 64 bits where files are read back; that the files are stored and found is the subject of C02 and C06.* |
| C73 | The file of an image is the one the server sent, and only sizes of SVG files are changed | proved | Inversion of the run of downloadImage: the download of the page touches no image (cache entries of different folders differ, C09), the download of the file stores the body (C01) or returns the entry; then the replacement of sizes is followed through its cases. The size itself is C64. *The XML decoder and the checksum are parameters; a failed file operation has no effect in the model (a file that is only partly overwritten when its sizes are replaced is not modelled); image names with a further colon are cut (C17), their file is the one of the shorter name.* |
| C74 | The text of an article is the one in the answer of the wiki | partial | A reader for JSON after encoding/json (Go/JsonRead.lean: scanner, unquoting with surrogates and replacement of invalid bytes, storing in structs with folded names) and an independent relation between values and the texts that denote them (Spec/Answers.lean); the reader finds the value for every such text, by mutual induction over values; a text that is cut off is not read because reading a longer text gives the same value and the same rest. Composed with C18 and C13. *False for answers without an article (last theorem): they are taken for an article without title and text; the article is not in the cache before (what is in the cache is what was stored, C01); nesting of at most 10000 levels, the limit of encoding/json; names of members that differ from the expected ones only in case are excluded from the further members, as they are taken for the expected ones.* |
| C75 | Settings, articles and metadata of a book are those in the config file and the project file | proved | The reader of C74; storing in a struct is followed for one field at a time: members of other names do not touch it, its one member sets it, and there is no error when all members with names of fields have values of their kinds. Settings are named by the table of doc/configuration.md (Spec/ConfigFiles.lean). Composed with C22. *Each setting at most once in a file, and members with other names (which the program ignores, also misspelled settings) are ASCII; values that are equal to the defaults do not override, and paths and lists are resolved and compared, as C22, C24, C25 and C48 say; nesting of at most 10000 levels; reading the bytes of the file is not modelled, the options of the command line are a layer.* |
| C76 | A failed request never leaves a gap or a change in a page | proved | A relation between two runs (same result, or the first one is an error) is kept by every function from the tokenizer to the expansion of lists, tables and captions, by induction over steps and structures; the second theorem compares with two runs that have other answers. *Failures of templates and formulas; failures of images and of the article itself are the subject of C13 and C16; C76_failed_formula_is_an_error for formulas within the texts of C63.* |
| C77 | A second run needs no network and gives the same page | proved | Hoare triples for every function with effects: what is in the cache stays there with its content, and the result of each call is determined by files that are in the cache afterwards. Then the run with all its effects follows the pure function of C57 and C59 on the answers in the cache, by induction over steps and structures; in the second run each lookup finds its file and each call changes nothing but times. *The run of one article until its page is complete (Model/ProcessArticle.lean); writing the HTML file is the subject of C67; no eviction strategy in the first run, same order of iteration over maps in both runs (the influence of the order is the subject of C39), names of images are not empty or dots.* |
| C78 | The page shows the article that the wiki has sent | partial | C77 gives that a run with effects makes the page of the pure function on the answers in the cache, C74 that the article is the one of the JSON answer, C69 and C76 that the pure function makes the page of the article and nothing else. More steps do not change a result (Lemmas/TokenizeSteps.lean), so that the claim holds for a run with any number of steps. Props/AnswersSent.lean follows each file of the cache back to the request that stored it: the texts of articles and templates are those that were in the cache before the run or that the wiki has sent with status 200 as answer to a request for this very URL during the run. Props/AnyCache.lean shows the same for each eviction strategy and for failing file operations: there a file can vanish and be requested again, so the run is compared step by step with the pure function that gets the given answers (`Traces`). *Articles within the texts of C69 (which contains C59 and C68). C78_page_is_made_from_what_was_given_with_any_cache_partial holds for each eviction strategy, each size of the cache, all ages and all failures of file operations, but for articles without formulas; with formulas: no eviction strategy, not the template converter, and names of images are not empty or dots. C78_page_is_made_from_what_was_given_partial speaks only about what was in the cache before the run and what the wiki has sent during the run (Spec/Exchange.lean), the older theorem about the answers that are in the cache after the run.* |
| C79 | Files named by checksums stay in their folder and belong to one text | proved | The two sums are written out (Go/Digest.lean, checked with known sums). The number of digits follows from the number of words, whatever the rounds compute; the digits are checked for all 256 bytes; the representation is injective because two digits give the byte back. *That different texts have different SHA-1 sums is not claimed (there are collisions); files of images have the names of the images (C09, C58).* |
| C80 | Failures while the e-book is made are reported | proved | Each step is shown to end with all calls successful, with an error that has a cause, or with a crash because of a file without a heading; a text with a heading always has a match of the pattern, because the first `<h1>` is not behind the given one. *The library is given by which of its calls succeed; `NewEpub` is taken to succeed; what pandoc does is not modelled.* |
| C81 | Settings that are not given have the documented default | proved | Spec/Defaults.lean is the table of doc/configuration.md, keyed by the names of the settings. A setting that a layer does not contain passes each merge unchanged, since the decoded layer has the default there (`merge_default`, `file_default`); defaults of paths are empty or absolute, so that they are not resolved. For the texts of files with C75. *The cache folder of the user is an absolute path; the documentation gives the default of math-converter as a list with one text, the table of the specification has the text.* |
| C82 | Missing files of the settings are reported before the wiki is asked | proved | What the preparation of the folders creates is followed step by step: a path that exists afterwards existed before, belongs to the output path or is one of the folders of the cache; the check of the files comes afterwards and ends the program. *The cache folder, the output path and the paths of the files are absolute (C25, C48 say when they are); permissions and symbolic links are not modelled.* |
| C83 | The book of a single file has the text of this file | partial | The run is taken apart; for the text the theorem behind C78 about any cache is used; that the written page is what the generation of the book reads follows because no step of any run enters a path twice in the file system (Props/Tidy.lean). *Fails for names with further dots (the heading is cut at the first one), if there is a page of this name in the folder `html` of the working directory (this page becomes the book), and for statistics (always an error); the three are proved. The partial theorem holds for texts within C69 without formulas, with any cache, any eviction and any failures of file operations.* |
| C84 | Every request names the program with its version | proved | Requests with headers (Model/UserAgent.lean) for all sequences of answers; without headers they are those of Model/Web. The placeholder overlaps itself nowhere, so that the text between placeholders determines the result. *Headers are those the code sets; what the HTTP library adds to a request is not modelled.* |
| C85 | A page is an XML document with closed elements, as its first line announces | partial | A reader of the tags of XML documents (Spec/Xml.lean), one character after the other. The head of a page is rejected whatever follows. The text of an article is accepted by induction over the way its document is written (C57). *False of the code for every page: meta and link in the head are never closed; pictures and line breaks are not closed either; for the text of an article without such elements all elements are closed in the right order, through any nesting of tokens.* |
| C86 | A web link on the page leads to the address in the article | partial | A relation between the text of an attribute and its value in XML (Spec/Addresses.lean). References to characters are longer than the characters, so an address that is not escaped is read as it is exactly if none of the characters in question is in it. The place of the link in the page comes from C59. *False of the code for addresses with &, quotation marks or <, which are not escaped; from the wikitext to the page it is shown for links in paragraphs, headings, lists, tables and lists of references of all articles as in C59 that exactly the other addresses are read as they are written.* |
| C87 | A requested profile or trace covers the generation of the book | partial | `initialize` as a list of events (Model/Initialize.lean); the deferred functions are called when it returns. Cases over the options. *False of the code for all options: the deferred calls in initialize end both recordings before the command begins; the requested files are created and the recordings are started.* |
| C88 | The level of the log is one of the documented ones, otherwise the program ends at once | proved | As C87; the first event is the level, and without a level there are no events. *Strings.ToLower is a parameter that is known for ASCII texts.* |
| C89 | A reader of the page finds the file of each image | proved | With the reader of C86: the escaped path has none of the characters with a meaning in XML, and decoding it yields the path (C44). That names of images in articles have no spaces is a part of C58, for all articles. *Names that consist of dots only are excluded, they are no file names; formulas: paths without spaces (their names are checksums).* |
| C90 | The first heading of a page is the title of the article | partial | As C86, for the text between the first `<h1>` and the next tag of the page, which is the title as it is. *False of the code exactly for titles with & or <, which are not escaped; proved for all articles.* |
| C91 | A cache folder that the settings accept can be used | partial | The functions of the cache are written once more with the checks of all operations (Model/Guards.lean); on each state whose entries are accepted both versions do exactly the same, and the entries stay accepted. This also justifies that Model/FileSystem leaves the checks out. The path of the temporary file is the one of a longer name, since digits are not changed by sanitising. *False of the code for cache folders with a colon or another character that is not allowed on Windows: the settings are accepted and the program ends with the first file; also false if eviction finds a file of another program with such a character; proved for all other folders, on systems other than Windows; names are not empty or dots.* |
| C92 | What an interrupted run has left is removed at the next start, and nothing else | proved | The preparation of C82 is followed with what each step keeps: creating folders and files never replaces what is there, and the folders of the cache are not below the folder for temporary files. With C01, which says what can be new at each point of a write. *For starts that succeed; the cache folder is an absolute path (C25, C48); os.RemoveAll is taken to succeed; permissions and symbolic links are not modelled.* |
| C93 | Reported success means that the statistics are complete in the output file | partial | Opening the output file with its check and copying the report (Model/StatsOutput.lean); induction on the bytes of the report with the fault model of C01. Paths that the check rejects and failing writes are shown to break the claim. *Proved for the paths that the check accepts; false for paths with a character that is not allowed on Windows, which are accepted by the preparation and end the program when the report is written; also false that an error keeps the earlier report: the file is emptied first.* |

## What is modelled

| source | modelled | not modelled |
|---|---|---|
| src/cache/cache.go | everything (`Model/Cache`, `Model/CachePath`, `Model/Concurrent`) | rounding of ages to float64; log output |
| src/config/config.go, project.go | all options, defaults, merging, validation, paths (`Model/Config`: a file is a function from options to values), JSON of the files (`Model/ConfigFiles`, `Go/JsonRead`) | texts of error messages; `Print` |
| src/generator/epub.go | both drivers (`Model/Epub`) | the inside of pandoc and of the library go-epub |
| src/generator/expand.go, html.go | everything (`Model/Expand`, `Model/ImagePath`, `Model/MathPicture`) | the XML decoder (parameter) |
| src/generator/stats.go | articles, books, the text report and the JSON files (`Model/ArticleStats`, `Model/Stats`, `Model/StatsText`, `Model/StatsJson`, `Model/StatsOutput`, `Go/Json`, `Go/Utf8`); reading with `json.Unmarshal` as in `Model/Answers` and `Model/ConfigFiles` | which code points are letters or numbers (parameter); numbers are unbounded when they are counted and written |
| src/http/http.go | requests, repetition, cache (`Model/Web`), headers (`Model/UserAgent`) | TCP, TLS, timeouts: answers are arbitrary scripts |
| src/image/image.go | commands (`Model/Command`) | the image tools |
| src/image/svg.go | everything (`Model/Svg`); in the model of the downloads only as a function that may fail | the XML decoder (parameter) |
| src/main.go | the start (`Model/Initialize`), commands and paths (`Model/Config`), the output file (`Model/Output`), worker pool (`Model/Workers`), the folders, the check of the files and the command for a single file (`Model/Standalone`), whole book with its files (`Model/Book`), one article (`Model/Wikipedia`, `Model/ArticleText`, with all its requests `Model/ProcessArticle`) | what a profile contains, command line syntax |
| src/parser/cleaner.go, hacks.go | everything (`Model/Cleaner`, `CleanLinks`, `CleanTemplates`, `ArticleText`) | the unused function `removeUnwantedHtml` |
| src/parser/*.go (other) | everything (`Model/CloseToken`, `Formatting`, `Headings`, `Images`, `Lists`, `ParseLinks`, `References`, `Tables`, `EvaluateTemplates`, `Tokens`, `Tokenize`) | `strings.ToLower` and upper case outside of ASCII (parameters) |
| src/util/*.go | paths, file names, commands, comparison of texts and lists (`Model/Sanitize`, `FileSystem`, `Guards`, `Command`, `Go/*`, SHA-1 and MD5 in `Go/Digest`) | `TruncString` (log output only) |
| src/wikipedia/wikipedia.go | all requests, images, formulas, templates (`Model/Wikipedia`), JSON of the answers (`Model/Answers`, `Go/JsonRead`) | in `Model/Wikipedia` the decoders are parameters, which C74 fills with those of `Model/Answers` |
| `*_mock.go`, src/test | – | test code |

`Verif.Model.articleHtml` connects the models of the parser and the generator to one function.

The concurrency model (C19, C21) treats a call of a cache function as atomic once it has the lock; the file system calls
inside are those of the sequential model, for which crashes at every point are considered (C01).

## Findings

Each item was found while formalising; those with a property number are proved as a theorem with a witness.

Cache and network
* A temporary file counts for the size of the cache: a file with at least half of the maximum size is never stored; the
  strategy "largest" then dereferences nil (C05).
* Reading with the strategy "lru" refreshes the time of modification, so that files in use never expire (C07 describes it).
* A cache folder named ".tmp" is never cleaned. The names "", "." and ".." leave the folder (excluded in C09).
* `IsSanitized` accepts stray percent signs (C11).
* The body of a POST request is empty when the request is repeated after status 429 (C15). A negative `Retry-After` leads
  to no waiting time.
* An empty list of image hosts is a success without a file (C16 assumes at least one host).
* The description of an image and an article are cached without regard to the host (C18).
* A title without colon in an answer crashes the program (C51).
* A PNG file is kept when its picture is downloaded again (C52). Names with ":" get a wrong path (C17).
* Image paths with a space are escaped with "+" (C44). Commands are torn at spaces of paths; `{OUTPUT}` within a file name is
  replaced again (C46).

Configuration and commands
* Profiles and traces are empty: `initialize` stops the recordings with `defer`, before the command begins (C87).
* A value equal to the default cannot override a lower layer (C22); repeated elements of lists are ignored in comparisons
  (C24); absolute font paths are changed (C25); relative paths of the command "project" are resolved against another folder
  (C48); the pandoc executable of the config file is never made absolute.
* The documentation gives a list as default of `math-converter`, which is a text; a config file with this value is an error (C81, C75).
* The option for sizes of SVG files replaces absolute sizes and leaves relative heights, since a negation is missing; an attribute
  such as `stroke-width` is replaced instead of the width if it comes first; `0, 0, 1, 2` as view box gives ` 1pt` as width (C64).
* While the images of an article are downloaded, one image can evict another one of the same article (C58).
* Repeated articles and articles with present HTML files are missing in the book (C20).
* With an eviction strategy the HTML file of an article can be evicted before the book is generated, if the pages together are larger
  than the cache; whether an HTML file exists is looked up below the working directory instead of the cache (C67).
* A file returned by the cache may have been evicted when it is read (C21).
* An answer of the wiki without the member `parse` (an error without the header mediawiki-api-error, `null`, `{}`) becomes an article without title and text (C74).
* Settings with misspelled names in config files and project files are ignored without a message (C75), and names in other case are accepted.
* For statistics, an output path (also a folder) that does not end with "json" or "txt" is replaced by `./stats.json` or `./stats.txt`;
  `-o /x/new/` fails in the first run and works in the second; `-o new/` creates a file named `new`; a project without an
  output file fails although there is a default name (C65).
* The command for a single file cuts the name at its first dot ("Dr. No.mediawiki" becomes "Dr"); a page in the folder `html` of the
  working directory is made into the book instead of the file; with an output type for statistics all requests are sent and then
  the program ends with an error (C83).

Parser
* The program crashes on: unclosed `[[` (also within nowiki, C38), `<nowiki>`, `<ref>`, tables, captions and rows; `</ref>` alone; `[[]]` and `[[#s]]`
  (C42); `[[Category:a]` and `[[File:a.jpg]` at the end; an empty file name; an image map at the end of the text; an image map
  with an ignored media type (C60); `|-` in the last line; an indented `|}` (C36); a reference directly behind the start of a list
  of references (C37).
* The program does not terminate on: text with `$$TEMPLATE_PLACEHOLDER_` (C39), a heading `$$TOKEN_HEADING_0$$` (C53).
  The search for bold and italic text has exponential time.
* Text is lost: links with a colon in their text and links to articles such as "Alien: Covenant" (C41), links with an unknown protocol (C28), templates whose names begin
  with the name of an ignored template (C40), text in front of comments loses its line break (C31), lines that are bold as
  a whole can be removed as empty sections (C33), cells with negative numbers (C36), definitions of references without a list
  (C37), images with a colon in their name or a space in front of `File:` (C58), captions that begin with
  "mini" or "thumb" or end with "px", captions of gallery images that contain the letters "thumb" (C60), the text behind `|}`, everything behind an unclosed external link.
* Text is changed: "* #1 in Berlin" becomes a nested list (C35), headings that contain their own marker lose it (C34),
  a paragraph that is a single link is joined with the paragraphs around it (C59),
  `[foo bar` gets a closing bracket (C42), an unclosed `''` leaves all following apostrophes as they are (C30), comments
  and templates within nowiki are processed (C38), "!!" and "||" in text split cells.
* An unclosed `{{` makes the whole article fail (C39); a doubled dollar sign in an article with tokens as well (C29).
* A bracket in the caption of an image, as in `[[File:a.jpg|mini|interval [0,1)]]`, removes the first character behind the image; if a
  reference follows directly, the generator crashes, and with emphasis an internal key is shown (C62).
* Formulas with two second derivatives (`f''`) are given to the renderer with internal markers, formulas with `[[` or `{{` with
  internal keys or as templates; behind `<math/>` all text up to the next formula is taken for a formula (C63).
* References of different groups have the same numbers (C37); a reference in a heading is numbered separately.
* The media prefix of an image (`Datei:`) is replaced by `File`; without "file" in the option for file prefixes all images vanish (C60).
* With the default configuration, an option such as `right` at the end of an image is shown as its caption (C60). Images of galleries
  are requested twice.

Generator
* No page is well-formed XML, although it begins with an XML declaration: `meta`, `link`, `img` and `br` are never closed (C85).
* Addresses of web links are not escaped: with `&` (each address with two parameters) the attribute is not valid in XML, and a quotation
  mark ends it (C86).
* Text and titles are not escaped: `&` or `<` in a text or in a title ("AT&T") yields no valid XHTML (C90; C47 says that text is shown as
  it is).
* The driver that uses the Go library takes everything up to the last `</h1>` as title (C55) and crashes without `<h1>`.
* Statistics ignore nested lists and nowiki (C56); the list of the ten most frequent links depends on the random order of a
  map (C43); "jp" and "se" are no language codes of Wikipedia.
* A cache folder with a colon, a question mark or another character that Windows does not allow is accepted by the settings, but
  the first access to the cache ends the program with a contract violation; the same happens if a file of another program with such
  a name is to be evicted (C91).
* An output path with such a character is accepted and created at the start, but the program ends when it is about to write the
  statistics, after all articles have been processed; and since the output file is emptied first, a failing write loses the earlier
  report (C93).


## Axioms of each theorem

`lake env lean` with `#print axioms`. P = `propext`, C = `Classical.choice`, Q = `Quot.sound`. No theorem depends on
anything else, in particular not on `sorryAx`, `Lean.ofReduceBool` or `Lean.trustCompiler`.

* C01: `C01_write_crash_atomic` (PCQ), `C01_write_frame` (PCQ), `C01_write_success` (PCQ), `C01_write_failure` (PCQ), `C01_no_temp_file_left` (PQ)
* C02: `C02_cache_stays_below_limit` (PCQ)
* C03: `C03_eviction_terminates` (PCQ), `C03_evictions_necessary_and_ordered` (PCQ), `C03_nothing_evicted_when_it_fits` (PCQ)
* C04: `C04_evicts_best_victim` (PCQ), `C03_evictions_necessary_and_ordered` (PCQ)
* C05: `C05_small_file_is_stored_partial` (PCQ), `C05_half_limit_file_never_stored` (PCQ), `C05_half_limit_file_empties_cache` (PCQ), `C05_fitting_file_not_stored` (P)
* C06: `C06_no_strategy_no_loss` (PCQ)
* C07: `C07_lookup_missing` (PCQ), `C07_lookup_existing` (PCQ), `C07_usable_is_fresh` (PCQ)
* C08: `C08_lookup_yields_last_write` (PCQ)
* C09: `C09_entry_is_direct_child` (PCQ), `C09_entry_paths_injective` (PCQ), `C09_dotdot_escapes` (P)
* C10: `C10_sanitize_no_forbidden` (PQ), `C10_sanitize_decodes` (PQ), `C10_sanitize_injective` (PQ), `C10_sanitize_plain` (PQ), `C10_sanitize_accepted` (PCQ), `C10_entry_path_accepted` (PCQ)
* C11: `C11_check_rejects_forbidden_partial` (PCQ), `C11_stray_percent_accepted` (P)
* C12: `C12_relative_path_round_trip` (PCQ)
* C13: `C13_hit` (PCQ), `C13_miss_requests_once` (PCQ), `C13_failed_request_leaves_no_entry` (PCQ), `C13_success_stores_body` (PCQ), `C13_second_download_no_request` (PCQ), `C13_only_successful_bodies_stored` (PCQ)
* C14: `C14_retry` (P), `C14_no_other_end` (P)
* C15: `C15_repeated_post_is_empty` (P), `C15_every_repetition_is_empty` (PQ), `C15_get_repetitions_identical_partial` (PQ)
* C16: `C16_first_delivering_host_wins` (P), `C16_error_if_no_host_delivers` (P), `C16_success_only_by_delivery` (P), `C16_requests_of_one_host` (PQ), `C16_no_later_host_contacted` (PQ), `C16_no_host_no_error` (P)
* C17: `C17_image_exists_at_html_path_partial` (PCQ), `C17_fails_for_colon` (P)
* C18: `C18_article_from_asked_host_partial` (PCQ), `C18_article_of_other_wiki` (PCQ)
* C19: `C19_terminates` (PQ), `C19_never_stuck` (PCQ), `C19_files_in_article_order` (PCQ), `C19_fails_only_by_article` (PCQ)
* C20: `C20_every_article_has_file_partial` (PCQ), `C20_repeated_article_has_no_file` (PCQ), `C20_present_html_is_dropped` (PCQ)
* C21: `C21_linearizable` (PQ), `C21_readers_see_complete_files` (PCQ), `C21_returned_file_stays_partial` (PCQ), `C21_returned_file_can_vanish` (P)
* C22: `C22_int_option_partial` (PCQ), `C22_bool_option_partial` (PCQ), `C22_text_option_partial` (PCQ), `C22_pandoc_executable_partial` (PCQ), `C22_path_option_partial` (PCQ), `C22_list_option_partial` (PCQ), `C22_font_files_partial` (PCQ), `C22_default_value_does_not_override` (P)
* C23: `C23_check_is_documentation` (PCQ), `C23_only_documented_configurations` (PCQ), `C23_documented_configuration_accepted_partial` (PCQ), `C23_intermediate_configuration_is_rejected` (PCQ)
* C24: `C24_equal_iff_permutation_partial` (PQ), `C24_permutations_are_equal` (PQ), `C24_difference_is_seen` (PCQ), `C24_duplicates_are_confused` (PCQ)
* C25: `C25_paths_relative_to_config_file_partial` (PCQ), `C25_resolving_twice` (P), `C25_absolute_paths_stay` (PQ), `C25_absolute_font_file_moves` (P)
* C26: `C26_close_token` (PCQ), `C26_close_token_ignore_case` (PCQ), `C26_equal_tokens` (PCQ), `C26_every_text_can_be_read` (PCQ), `C26_position` (PCQ)
* C27: `C27_no_token_is_replaced` (PCQ), `C27_earlier_tokens_are_kept` (PCQ)
* C28: `C28_tokens_are_replaced_in_place_partial` (PCQ), `C28_missing_token_is_reported` (PCQ), `C28_no_text_is_lost_partial` (PCQ), `C28_text_of_unknown_links_is_lost` (PQ)
* C29: `C29_single_dollars_are_kept_partial` (PCQ), `C29_text_is_kept` (PCQ), `C29_double_dollar_fails` (PQ), `C29_dollar_before_token_fails` (PQ)
* C30: `C30_formatting_is_well_formed` (PCQ), `C30_text_is_shown_as_written` (PCQ), `C30_unclosed_italic_disables_the_rest` (none)
* C31: `C31_comments_removed_partial` (PQ), `C31_own_line_partial` (PQ), `C31_joins_lines` (P), `C31_short_comment` (P)
* C32: `C32_only_empty_entries` (PCQ), `C32_idempotent` (PCQ)
* C33: `C33_text_survives` (PCQ), `C33_only_empty_sections_removed` (PCQ), `C33_bold_last_line_survives` (PCQ), `C33_heading_with_text_survives` (PCQ), `C33_empty_section_removed_partial` (PCQ), `C33_applies_after_list_cleaning` (PQ), `C33_nested_empty_sections` (P), `C33_bold_sentence_removed` (P)
* C34: `C34_headings_keep_level_and_text_partial` (PCQ), `C34_headings_are_parsed` (PQ), `C34_headings_of_the_tokenizer_partial` (PCQ), `C34_inner_marker_is_lost` (PQ)
* C35: `C35_lists_keep_their_structure_partial` (PCQ), `C35_token_is_the_tree` (PCQ), `C35_text_of_item_becomes_a_list` (PQ)
* C36: `C36_tables_keep_their_structure_partial` (PCQ), `C36_tokens_have_the_same_cells_partial` (PCQ), `C36_closed_tables_do_not_crash_partial` (PCQ), `C36_negative_number_is_lost` (PQ), `C36_heading_with_two_lines_becomes_data` (PQ), `C36_heading_behind_bars_becomes_data` (PQ), `C36_alignment_without_semicolon_is_lost` (PQ), `C36_text_behind_second_bar_is_lost` (PQ), `C36_indented_end_crashes` (PQ)
* C37: `C37_references_become_markers_and_lists_partial` (PCQ), `C37_same_number_iff_same_reference` (PCQ), `C37_numbers_follow_the_first_mention` (PCQ), `C37_numbers_are_consecutive` (PCQ), `C37_entries_have_the_number_of_their_reference` (PCQ), `C37_entries_are_ordered` (PCQ), `C37_defined_references_have_an_entry` (PCQ), `C37_markers_and_entries_show_the_number` (PCQ), `C37_groups_have_the_same_numbers` (PQ), `C37_undefined_reference_has_no_entry` (PQ), `C37_without_list_the_text_is_lost` (PQ), `C37_reference_directly_behind_list_start_crashes` (PQ), `C37_reference_behind_empty_list_crashes` (PQ)
* C38: `C38_content_verbatim_partial` (PCQ), `C38_unclosed_tag_crashes` (PQ), `C38_comment_in_nowiki_is_removed` (P), `C38_elements_are_shown_as_written_partial` (PCQ), `C38_brackets_in_nowiki_crash` (PQ), `C38_templates_in_nowiki_are_evaluated` (none)
* C39: `C39_templates_are_evaluated_inside_out_partial` (PCQ), `C39_results_are_complete` (PCQ), `C39_placeholder_in_text_never_ends` (PCQ), `C39_unterminated_template_fails` (none), `C39_failed_template_is_an_error` (PCQ), `C39_answers_are_filled_in_partial` (PCQ)
* C40: `C40_templates_removed_and_moved_partial` (PCQ), `C40_rest_unchanged` (PCQ), `C40_prefix_is_enough` (P), `C40_arguments_are_lost` (P)
* C41: `C41_unwanted_links_removed_partial` (PCQ), `C41_text_without_links` (PQ), `C41_colon_in_label` (P), `C41_titles_with_colon_vanish` (PCQ), `C41_unclosed_link_crashes` (P)
* C42: `C42_links_to_articles_partial` (PCQ), `C42_links_to_web_pages_partial` (PCQ), `C42_crashes_only_for_empty_links_partial` (PCQ), `C42_empty_link_crashes` (PQ), `C42_bracket_is_added` (PQ)
* C43: `C43_statistics_are_sums` (PCQ), `C43_links_out_of_the_book` (PCQ), `C43_order_does_not_matter` (PCQ), `C43_unreadable_article_is_an_error` (PQ), `C43_short_list_depends_on_map_order` (P)
* C44: `C44_decode_escaped_path_partial` (PQ), `C44_fails_for_space` (P), `C44_image_path_has_no_space` (PCQ)
* C45: `C45_pandoc_gets_articles_and_options` (PQ)
* C46: `C46_arguments_partial` (PCQ), `C46_path_is_one_argument_partial` (PQ), `C46_resize_arguments_partial` (PCQ), `C46_path_with_space_is_torn` (none), `C46_placeholder_in_path` (none)
* C47: `C47_text_without_markup_is_unchanged` (PCQ)
* C48: `C48_command_line_path_partial` (PCQ), `C48_project_moves_command_line_paths` (P)
* C49: `C49_article_requests` (PCQ), `C49_template_requests` (PCQ), `C49_math_form` (PCQ), `C49_math_request` (PCQ)
* C50: `C50_known_formula` (PCQ), `C50_formula_asked_once` (PCQ), `C50_no_id_is_an_error` (P)
* C51: `C51_article` (P), `C51_template` (P), `C51_math` (P), `C51_images_partial` (PCQ), `C51_title_without_colon_crashes` (P)
* C52: `C52_first_conversion_partial` (PCQ), `C52_stale_conversion` (P)
* C53: `C53_heading_with_key_never_ends` (PCQ), `C53_text_is_taken_as_key` (PQ), `C29_text_is_kept` (PCQ)
* C54: `C54_paragraphs` (PCQ)
* C55: `C55_articles_become_sections_partial` (PQ), `C55_heading_of_level_one_swallows_text` (PQ), `C55_title_of_section_is_wrong` (PQ)
* C56: `C56_statistics_count_what_is_in_the_article_partial` (PCQ), `C56_reading_speed` (none), `C56_reading_speed_of_the_language_partial` (PQ), `C56_japanese_and_swedish_get_the_average` (none), `C56_characters_are_counted_partial` (PCQ), `C56_nested_lists_are_not_counted` (PQ)
* C57: `C57_elements_become_html_partial` (PCQ), `C57_html_is_well_nested` (PQ), `C57_document_partial` (PCQ), `C57_tag_in_nowiki_is_not_escaped` (PQ)
* C58: `C58_shown_images_are_requested` (PCQ), `C58_shown_images_exist_partial` (PCQ), `C58_image_is_evicted_by_a_later_image` (P), `C58_image_with_colon_is_lost` (PQ)
* C59: `C59_articles_become_html_partial` (PCQ), `C59_link_paragraphs_are_joined` (PQ), `C59_bold_paragraph_is_lost` (P)
* C60: `C60_images_partial` (PCQ), `C60_plain_images_partial` (PCQ), `C60_images_are_no_links` (PCQ), `C60_galleries` (PCQ), `C60_gallery_images` (PQ), `C60_image_maps` (PCQ), `C60_caption_like_frame_is_lost` (PQ), `C60_caption_like_size_is_lost` (PQ), `C60_option_becomes_caption` (PQ), `C60_gallery_caption_is_lost` (PQ), `C60_image_map_at_end_crashes` (PQ), `C60_unwanted_image_map_crashes` (PQ), `C60_images_need_english_prefix` (PCQ)
* C61: `C61_parser_ends` (PCQ), `C61_cleaning_ends` (PQ), `C61_template_search_ends` (PCQ), `C61_article_ends_partial` (PCQ), `C61_article_without_templates_ends` (PCQ), `C61_evaluation_of_templates_ends_partial` (PCQ), `C61_article_with_templates_ends_partial` (PCQ)
* C62: `C62_text_becomes_page_partial` (PCQ), `C62_article_becomes_page_partial` (PCQ), `C62_article_without_underscores_becomes_page_partial` (PCQ), `C62_text_behind_an_image_breaks_the_page` (PQ)
* C63: `C63_formulas_are_rendered_as_written_partial` (PCQ), `C63_derivatives_are_taken_for_italic_text` (PQ), `C63_brackets_are_taken_for_links` (PQ), `C63_empty_tag_swallows_text` (PQ)
* C64: `C64_size_is_the_one_of_the_view_box_partial` (PCQ), `C64_absolute_sizes_are_replaced` (PCQ), `C64_relative_height_stays` (PQ), `C64_no_view_box_no_change` (PCQ), `C64_only_namespaces_are_removed` (PCQ), `C64_other_attribute_is_replaced` (P), `C64_comma_with_space` (P)
* C65: `C65_article_output_is_at_the_given_path_partial` (PCQ), `C65_article_default_output_partial` (PCQ), `C65_project_output_is_at_the_given_path_partial` (PCQ), `C65_no_output_below_a_file` (PCQ), `C65_statistics_ignore_other_paths` (PQ), `C65_statistics_are_not_put_into_a_folder` (P), `C65_new_folder_fails_once` (PCQ), `C65_relative_folder_becomes_file` (P), `C65_project_without_path_fails` (PQ)
* C66: `C66_report_is_right` (PCQ)
* C67: `C67_book_has_the_pages_of_all_articles_partial` (PCQ), `C67_pandoc_gets_the_pages_partial` (PCQ), `C67_library_gets_the_pages_partial` (PCQ), `C67_books_can_be_generated` (PCQ), `C67_eviction_loses_pages` (PCQ)
* C68: `C68_hidden_parts_leave_no_trace_partial` (PCQ), `C31_joins_lines` (P), `C33_nested_empty_sections` (P)
* C69: `C69_templates_become_their_answers_partial` (PCQ), `C69_failed_template_is_an_error` (PCQ)
* C70: `C70_image_requests` (PCQ)
* C71: `C71_picture_of_the_formula` (PCQ)
* C72: `C72_statistics_of_the_book` (PCQ), `C72_statistics_are_read_back` (PCQ), `C72_statistics_or_error` (PQ), `C72_cut_off_files_are_errors` (PCQ), `C72_file_of_an_article` (PQ), `C72_file_of_the_book` (PQ), `C72_same_statistics_same_file` (PQ)
* C73: `C73_image_file_is_the_delivered_one` (PCQ), `C73_svg_file_has_size_of_view_box` (PCQ)
* C74: `C74_article_is_the_one_of_the_answer` (PCQ), `C74_template_is_the_one_of_the_answer` (PCQ), `C74_cut_off_answers_are_errors_partial` (PCQ), `C74_texts_are_valid` (PCQ), `C74_answer_without_article_is_accepted` (PCQ)
* C75: `C75_config_file` (PCQ), `C75_project_file` (PCQ), `C75_book_of_the_files` (PCQ), `C75_wrong_values_are_errors` (PCQ), `C75_cut_off_files_are_errors` (PCQ), `C75_no_book_from_broken_files` (P)
* C76: `C76_failures_give_no_other_page` (PQ), `C76_needed_requests_have_to_succeed` (PQ), `C76_failed_formula_is_an_error` (PCQ)
* C77: `C77_second_run_without_requests` (PCQ), `C77_everything_is_left_in_the_cache` (PCQ), `C77_page_from_the_cache` (PCQ)
* C78: `C78_page_is_made_from_what_was_given_with_any_cache_partial` (PCQ), `C78_page_is_made_from_what_was_given_partial` (PCQ), `C78_page_shows_what_the_wiki_sent_partial` (PCQ), `C78_page_of_the_article_in_the_cache_partial` (PCQ)
* C79: `C79_files_of_templates_and_formulas` (PCQ), `C79_sums_are_digits` (PQ), `C79_sums_are_usable` (PQ), `C79_address_of_image_file` (PQ)
* C80: `C80_failures_are_reported` (PCQ), `C80_unknown_output_is_an_error` (PQ), `C80_pages_have_titles` (PQ), `C80_no_crash_for_generated_pages` (PCQ)
* C81: `C81_default_of_article` (PCQ), `C81_default_of_project` (PCQ), `C81_default_of_the_files` (PCQ), `C81_one_default_each` (PQ)
* C82: `C82_missing_files_are_reported` (PCQ), `C82_present_files_are_accepted` (PCQ), `C82_nothing_is_requested_without_the_files` (PCQ)
* C83: `C83_book_of_a_file_has_its_text_partial` (PCQ), `C83_names_with_dots_are_cut` (P), `C83_earlier_page_is_used_instead` (PCQ), `C83_no_statistics_of_a_file` (PQ)
* C84: `C84_requests_name_the_program` (PQ), `C84_every_template_can_be_filled` (PQ)
* C85: `C85_text_is_balanced_partial` (PCQ), `C85_no_page_is_xml` (PQ)
* C86: `C86_addresses_of_links_partial` (PCQ), `C86_ampersands_are_not_escaped` (PQ), `C86_quotation_mark_ends_the_address` (PQ)
* C87: `C87_requested_recordings_are_started_partial` (PCQ), `C87_recordings_end_before_the_command` (PCQ)
* C88: `C88_documented_levels_are_used` (PQ), `C88_unknown_levels_are_reported` (P)
* C89: `C89_images_of_articles_lead_to_their_files` (PCQ), `C89_images_lead_to_their_files` (PCQ), `C89_formulas_lead_to_their_files` (PQ)
* C90: `C90_titles_partial` (PQ), `C90_ampersands_in_titles_are_not_escaped` (PQ)
* C91: `C91_storing_passes_the_checks_partial` (PCQ), `C91_searching_passes_the_checks_partial` (PCQ), `C91_runs_pass_the_checks_partial` (PCQ), `C91_folders_with_colons_end_the_program` (PCQ), `C91_settings_accept_each_folder` (none), `C91_foreign_files_end_the_program` (P)
* C92: `C92_leftovers_are_removed` (PCQ), `C92_nothing_else_is_removed` (PCQ), `C92_folders_of_the_cache_exist` (PCQ), `C92_interrupted_writes_leave_nothing` (PCQ)
* C93: `C93_success_means_complete_partial` (PCQ), `C93_reports_are_written_partial` (PCQ), `C93_without_report_nothing_is_written` (PQ), `C93_paths_with_colons_get_no_report` (PCQ), `C93_preparation_accepts_colons` (P), `C93_failures_lose_the_earlier_report` (PCQ)
