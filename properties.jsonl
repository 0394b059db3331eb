{"id": "C01", "title": "Cache writes are crash-atomic", "statement": "When wiki2book is killed at any moment while it stores a file in its cache, the cache entry of that file is afterwards either missing, exactly the old complete content or exactly the new complete content. A half-written entry is never visible under the entry's path, so the next run never reads a broken file.", "quantifier": "for every file-system state, every content to store (delivered in arbitrary chunks), every eviction strategy and every crash point", "why_tests_cant": "A unit test runs the function to completion; crash points between system calls and within the copy loop are not reachable from a test.", "anchors": ["src/cache/cache.go: CacheToFile", "src/util/files.go: OsFilesystem.CreateTemp, Rename, Remove"]}
{"id": "C02", "title": "The cache never outgrows its size limit", "statement": "With an eviction strategy configured and a cache that is below the configured maximum size, every sequence of successful and failing cache writes and reads leaves the total size of all cached files below the maximum size.", "quantifier": "for every initial cache below the limit, every finite sequence of operations (any names, any contents, any sizes) and both strategies (largest, lru)", "why_tests_cant": "It is an invariant over unbounded operation histories; the size arithmetic (replacing an existing entry, evicting the entry that is being replaced, counting the temp file) is only right because of the invariant itself.", "anchors": ["src/cache/cache.go: CacheToFile, deleteFilesFromCacheIfNeeded", "src/util/files.go: DirSizeInBytes"]}
{"id": "C03", "title": "Eviction always terminates and evicts nothing needlessly", "statement": "The eviction loop of a cache write always ends. Every single deletion happened while the cache plus the new file was still at or above the limit, and nothing is deleted when the file fits. Temporary files are never evicted.", "quantifier": "for every cache state, size limit, new file and strategy", "why_tests_cant": "Termination and minimality over all states cannot be observed with finitely many runs.", "anchors": ["src/cache/cache.go: deleteFilesFromCacheIfNeeded, deleteLargestFileFromCache, deleteLruFileFromCache", "src/util/files.go: FindLargestFile, FindLruFile"]}
{"id": "C04", "title": "Eviction follows the configured order", "statement": "With strategy 'largest' every evicted file is at least as large as every file that stays in the cache at that moment; with 'lru' every evicted file was used no later than every file that stays.", "quantifier": "for every directory walk order and every cache content, for every step of the eviction", "why_tests_cant": "Depends on all relative orders of sizes and times incl. ties.", "anchors": ["src/util/files.go: FindLargestFile, FindLruFile", "src/cache/cache.go: deleteLargestFileFromCache, deleteLruFileFromCache"]}
{"id": "C05", "title": "A file that fits into the cache can be stored", "statement": "Storing a file which is smaller than the maximum cache size succeeds when the file system reports no errors, possibly after evicting other files.", "quantifier": "for every cache state, limit, strategy and every file smaller than the limit", "why_tests_cant": "The failing region is a band of sizes relative to the limit which the unit tests never enter.", "anchors": ["src/cache/cache.go: CacheToFile, deleteFilesFromCacheIfNeeded", "src/util/files.go: FindLargestFile, FindLruFile, DirSizeInBytes"]}
{"id": "C06", "title": "Without an eviction strategy the cache never loses a file", "statement": "With strategy 'none' a cache write changes no other entry of the cache, whether it succeeds or fails.", "quantifier": "for every cache state and every written file, every result of the copy", "why_tests_cant": "Frame conditions quantify over all other files.", "anchors": ["src/cache/cache.go: CacheToFile"]}
{"id": "C07", "title": "Cache lookups honour the maximum age", "statement": "A lookup reports a file as usable exactly if the file exists and its age in whole minutes does not exceed the configured maximum age. An outdated file is removed by the lookup, a usable one keeps its content, and no other file is touched. With the lru strategy the lookup marks the file as used now.", "quantifier": "for every cache state, clock value, maximum age and file name", "why_tests_cant": "Boundary of the age comparison with truncation to minutes, for all clocks and states.", "anchors": ["src/cache/cache.go: GetFile, isOutdated"]}
{"id": "C08", "title": "What was cached is what is read later", "statement": "The cache behaves like a map from (folder, file name) to content: after any history of writes and lookups, a lookup that reports a usable file yields exactly the content of the last successful write to that folder and name.", "quantifier": "for every finite history of writes and lookups over arbitrary names and contents, both without and with eviction and ageing", "why_tests_cant": "Refinement over unbounded histories with eviction in between.", "anchors": ["src/cache/cache.go: CacheToFile, GetFile, GetFilePathInCache", "src/util/files.go: SanitizeFilename"]}
{"id": "C09", "title": "Distinct cache keys never share a file and never leave their folder", "statement": "Two different file names (other than the empty name, '.' and '..') in the same cache folder are stored at different paths, and each path is a direct child of its cache folder - whatever slashes, dots or percent signs the names contain.", "quantifier": "for all pairs of file names and all cache directories", "why_tests_cant": "Injectivity and absence of path traversal over all strings.", "anchors": ["src/cache/cache.go: GetFilePathInCache, GetRelativeFilePathInCache, GetDirPathInCache", "src/util/files.go: SanitizeFilename"]}
{"id": "C10", "title": "File name sanitising is lossless and safe", "statement": "A sanitised file name contains none of the characters < > : \" / \\ | ? *, the original name can be recovered from it, and it always passes the sanitised-path check that guards every file operation.", "quantifier": "for every byte string as file name", "why_tests_cant": "Ten sequential replacements interact; correctness over all strings is not testable.", "anchors": ["src/util/files.go: SanitizeFilename, IsSanitized, RequireFilePathIsSanitized"]}
{"id": "C11", "title": "The sanitised-path check rejects every unsafe path", "statement": "A path accepted by the sanitised-path check has no segment containing one of the forbidden characters, and every percent sign in it belongs to one of the ten known escape sequences.", "quantifier": "for every path", "why_tests_cant": "Soundness of a checker over all strings; removal of one sequence may create another one.", "anchors": ["src/util/files.go: IsSanitized"]}
{"id": "C12", "title": "Paths written into HTML lead to the cached file", "statement": "The path of a cache entry relative to the cache directory, joined with the cache directory, is the path of the entry again; so the relative paths used in the generated HTML point to the file that was cached.", "quantifier": "for every absolute clean cache directory, folder and file name", "why_tests_cant": "Round trip over all path strings.", "anchors": ["src/cache/cache.go: GetPathRelativeToCache, GetRelativeFilePathInCache, GetFilePathInCache", "src/util/files.go: ToRelativePathWithBasedir"]}
{"id": "C13", "title": "Downloads are served from the cache and failures are never cached", "statement": "If the cache holds a usable file for a download, no request is sent and the cache stays as it is; otherwise exactly one logical request is sent. Only the body of a successful response is stored; a failed request (status other than 200 or an API error header) leaves no entry. Downloading the same file again within the maximum age sends no further request.", "quantifier": "for every cache state, every server behaviour and every file", "why_tests_cant": "Quantifies over all server behaviours and histories.", "anchors": ["src/http/http.go: DownloadAndCache, download, doRequest"]}
{"id": "C14", "title": "Rate-limited requests are repeated until answered", "statement": "A request is repeated exactly as long as the server answers with 429, waiting before each repetition for the number of seconds the server asked for (2 s if there is no readable number); the first other answer decides: 200 without API error header is a success, everything else an error.", "quantifier": "for every sequence of server answers of every length", "why_tests_cant": "Unbounded retry sequences.", "anchors": ["src/http/http.go: doRequest"]}
{"id": "C15", "title": "A repeated POST request carries the same form data", "statement": "When a POST request (template evaluation, math rendering) is repeated because of rate limiting, every repetition sends the same body as the first attempt.", "quantifier": "for every form and every number of 429 answers", "why_tests_cant": "Test servers answer the first request; the consumed body shows up only on the second attempt.", "anchors": ["src/http/http.go: PostFormEncoded, doRequest"]}
{"id": "C16", "title": "Images are taken from the first source that has them", "statement": "For each image the configured hosts are asked in the configured order; the first host that delivers the image wins, no later host is contacted, and an error is reported exactly if no host delivers (or the post-processing fails).", "quantifier": "for every list of hosts and every combination of failing hosts", "why_tests_cant": "All failure patterns over lists of any length.", "anchors": ["src/wikipedia/wikipedia.go: DownloadImages, downloadImageUsingAllSources"]}
{"id": "C17", "title": "Image references in the HTML name the downloaded file", "statement": "The path an image has in the generated HTML is, relative to the cache, exactly the path at which the image was stored after download and conversion to PNG (for SVG, PDF and WebP according to the configuration).", "quantifier": "for every image file name, every configuration of the conversions", "why_tests_cant": "Parser, downloader and generator compute the name independently; agreement must hold for all names.", "anchors": ["src/wikipedia/wikipedia.go: DownloadImages, downloadImage, postProcessImage", "src/generator/html.go: filenameToImagePath", "src/config/config.go: ShouldConvertSvgToPng, ShouldConvertPdfToPng, ShouldConvertWebpToPng"]}
{"id": "C18", "title": "An article is taken from the requested wiki", "statement": "The article text used for a book comes from the wiki instance that was asked for, also when another book from another wiki instance was generated with the same cache before.", "quantifier": "for every pair of hosts and every history of downloads sharing one cache", "why_tests_cant": "Needs two runs with different configuration and a shared cache.", "anchors": ["src/wikipedia/wikipedia.go: DownloadArticle"]}
{"id": "C19", "title": "Parallel generation keeps the order of the articles", "statement": "The list of generated article files handed to the e-book generation has the files in the order of the articles in the project, each article is processed exactly once, and generation always comes to an end - independent of the number of workers and the scheduling.", "quantifier": "for every list of distinct articles, every number of workers >= 1 and every interleaving of the worker threads", "why_tests_cant": "Schedules cannot be enumerated by tests.", "anchors": ["src/main.go: generateBookFromArticles"]}
{"id": "C20", "title": "Every article of the project contributes its file to the book", "statement": "After the generation every article of the project - also when it is listed twice or its HTML is already present - has an HTML file handed to the e-book generation.", "quantifier": "for every list of articles and every state of the disk", "why_tests_cant": "Depends on duplicate entries and leftovers of earlier runs.", "anchors": ["src/main.go: generateBookFromArticles, processArticle, shouldRecreateHtml"]}
{"id": "C21", "title": "Concurrent cache use is linearizable and returned files exist", "statement": "Concurrent workers see the cache as if their operations were executed one after the other, and a file returned by a download can be read by the worker afterwards.", "quantifier": "for every interleaving of any number of workers", "why_tests_cant": "Schedules cannot be enumerated by tests.", "anchors": ["src/cache/cache.go: CacheToFile, GetFile, cacheWriteMutex", "src/http/http.go: DownloadAndCache", "src/wikipedia/wikipedia.go: DownloadArticle"]}
{"id": "C22", "title": "Configuration layers override each other in the documented order", "statement": "A value given on the command line wins over the project file, which wins over the config file, which wins over the default; a layer that does not set a value keeps the value of the layers below.", "quantifier": "for every combination of layers and every option", "why_tests_cant": "More than 25 options times all combinations of layers and values.", "anchors": ["src/config/config.go: MergeIntoCurrentConfig, LoadConfig", "src/main.go: initialize, generateProjectEbook"]}
{"id": "C23", "title": "Only valid configurations are used", "statement": "Generation only starts with a configuration whose values lie in the documented ranges, every documented configuration is accepted, and an output driver is only combined with an output type it supports.", "quantifier": "for every configuration", "why_tests_cant": "Decision logic over a product of domains.", "anchors": ["src/config/config.go: AssertValidity, VerifyOutputAndDriver"]}
{"id": "C24", "title": "List options differing from the default are recognised", "statement": "Two lists are considered equal regardless of the order exactly if they have the same elements with the same number of occurrences.", "quantifier": "for every pair of lists", "why_tests_cant": "The comparison is wrong only for lists with duplicates; all lists must be considered.", "anchors": ["src/util/collections.go: EqualsInAnyOrder", "src/config/config.go: MergeIntoCurrentConfig"]}
{"id": "C25", "title": "Paths in the config file are relative to the config file", "statement": "Relative paths in a config file are resolved against the directory of the config file, absolute paths stay as they are, and resolving twice changes nothing.", "quantifier": "for every directory and every path", "why_tests_cant": "All path strings.", "anchors": ["src/config/config.go: makePathsAbsolute, MakePathsAbsoluteToWorkingDir", "src/util/files.go: ToAbsolutePathWithBasedir"]}
{"id": "C26", "title": "Closing tokens are matched with respect to nesting", "statement": "The search for a closing token returns the position of the closing token that belongs to the currently open one: the text before it is balanced, no earlier position qualifies, and 'not found' is reported exactly if there is none.", "quantifier": "for every text, start position and every pair of tokens", "why_tests_cant": "Nesting depth is unbounded.", "anchors": ["src/parser/util.go: FindCorrespondingCloseToken, findCorrespondingCloseToken"]}
{"id": "C27", "title": "Tokens are never confused", "statement": "Every token created while parsing an article gets a key that no other token of the article has, so that no parsed element replaces another one.", "quantifier": "for every sequence of token creations of any length and kinds", "why_tests_cant": "Injectivity of the key format over unbounded counters and all kinds.", "anchors": ["src/parser/tokenizer.go: getToken, setRawToken, setToken"]}
{"id": "C28", "title": "Expansion replaces every token in place and loses no text", "statement": "Expanding a text with tokens yields exactly the text parts in their order with each token replaced by its own expansion; a token without definition is reported as an error instead of being dropped.", "quantifier": "for every text and every token map, with nested tokens of any depth", "why_tests_cant": "Unbounded nesting and sequences.", "anchors": ["src/generator/expand.go: expandString, expand, expandToken"]}
{"id": "C29", "title": "Article text containing dollar signs does not break the generation", "statement": "Ordinary text with dollar signs next to parsed elements is kept as text.", "quantifier": "for every text", "why_tests_cant": "The failure depends on the combination of two dollar signs with any other token.", "anchors": ["src/generator/expand.go: expandString"]}
{"id": "C30", "title": "Bold and italic markup is well-formed and loses no text", "statement": "Every text with any sequence of apostrophes is turned into properly nested, closed bold and italic sections; removing the markup leaves the original text without the apostrophes that were recognised as markup.", "quantifier": "for every text and every sequence of apostrophe runs", "why_tests_cant": "Ambiguous and crossing sequences of unbounded length.", "anchors": ["src/parser/formatting.go: parseBoldAndItalic, tokenizeBoldAndItalic, hasOddNumberOfItems"]}
{"id": "C31", "title": "Only comments are removed as comments", "statement": "Removing comments deletes exactly the comments from '<!--' to the next '-->' (plus a line break that would be left over as empty line); text outside of comments and unterminated comment starts stay unchanged.", "quantifier": "for every text", "why_tests_cant": "All texts with arbitrarily many and malformed comments.", "anchors": ["src/parser/cleaner.go: removeComments"]}
{"id": "C32", "title": "Cleaning lists removes only empty entries", "statement": "Removing empty list entries deletes exactly the lines that consist only of list characters, keeps the order of all other lines, and cleaning again changes nothing.", "quantifier": "for every text", "why_tests_cant": "All texts.", "anchors": ["src/parser/cleaner.go: removeEmptyListEntries"]}
{"id": "C33", "title": "Removing empty sections never removes text", "statement": "A line that is not a heading survives the removal of empty sections; the headings of a section with text below it (directly or in a subsection) survive as well, and sections without any text are removed.", "quantifier": "for every text and every nesting of headings", "why_tests_cant": "Unbounded nesting of sections.", "anchors": ["src/parser/cleaner.go: removeEmptySections, walkSection, headingDepth"]}
{"id": "C34", "title": "Headings keep their level and text", "statement": "A line '=...= text =...=' with n equal signs on both sides becomes a heading of level n with exactly that text, other lines are untouched.", "quantifier": "for every text line and level", "why_tests_cant": "All lines.", "anchors": ["src/parser/heading.go: parseHeadings", "src/generator/html.go: expandHeadings"]}
{"id": "C35", "title": "Lists keep their items, order and nesting", "statement": "A nested list written in wiki syntax is parsed to the same tree: same items, order, nesting and list type at each level.", "quantifier": "for every nested list of any depth and width", "why_tests_cant": "Round trip over all trees.", "anchors": ["src/parser/list.go: parseLists, tokenizeList"]}
{"id": "C36", "title": "Tables keep their rows and cells", "statement": "A table in wiki syntax is parsed to the same rows and cells in the same order with the header flag and attributes of each cell; a terminated table never crashes the parser.", "quantifier": "for every table of any size", "why_tests_cant": "Round trip over all tables.", "anchors": ["src/parser/table.go: parseTables, tokenizeTable, tokenizeTableRow, tokenizeTableColumn"]}
{"id": "C37", "title": "References are numbered consistently", "statement": "Footnote markers with the same name show the same number, different references show different numbers, numbers are consecutive in the order of first use, and marker n belongs to the n-th entry of the reference list.", "quantifier": "for every sequence of references", "why_tests_cant": "Unbounded sequences of named, unnamed and repeated references.", "anchors": ["src/parser/reference.go: parseReferences, getReferenceUsageToken", "src/generator/html.go: expandRefDefinition, expandRefUsage"]}
{"id": "C38", "title": "nowiki content is kept verbatim", "statement": "Text inside <nowiki> is not interpreted as markup and appears unchanged, and malformed nowiki tags do not crash the program.", "quantifier": "for every text", "why_tests_cant": "All texts and nestings.", "anchors": ["src/parser/nowiki.go: parseNowiki"]}
{"id": "C39", "title": "Templates are evaluated inside out independent of map order", "statement": "Every template of the text is sent to the wiki once with its inner templates replaced by placeholders, and the final text has every placeholder replaced by its result, independent of the (random) iteration order over the placeholders.", "quantifier": "for every text, every nesting and every iteration order", "why_tests_cant": "Go randomises map iteration; nesting is unbounded.", "anchors": ["src/parser/template.go: evaluateTemplates, replaceTemplateByPlaceholders"]}
{"id": "C40", "title": "Ignored and trailing templates", "statement": "Templates configured as ignored disappear completely, templates configured as trailing are moved to the end of the article, all other templates stay where they are.", "quantifier": "for every text and every configuration", "why_tests_cant": "All texts and nestings.", "anchors": ["src/parser/cleaner.go: handleUnwantedAndTrailingTemplates"]}
{"id": "C41", "title": "Only unwanted links are removed", "statement": "Links to other namespaces and languages that are not allowed are removed completely, all other text and links stay unchanged, and malformed links do not crash the program.", "quantifier": "for every text and every configuration of prefixes", "why_tests_cant": "All texts.", "anchors": ["src/parser/cleaner.go: removeUnwantedInternalLinks"]}
{"id": "C42", "title": "Links keep target and text", "statement": "An internal link '[[target|text]]' becomes a link with that target and text, '[[target]]' one whose text is the target, and no link syntax crashes the program.", "quantifier": "for every target and text", "why_tests_cant": "All link syntaxes.", "anchors": ["src/parser/link.go: parseInternalLinks, parseExternalLinks, parseLink"]}
{"id": "C43", "title": "Statistics of a book are the sums over its articles", "statement": "The combined statistics contain for every counter exactly the sum over the articles (sections, words, characters, links, images, ...), independent of the order of the articles.", "quantifier": "for every list of articles", "why_tests_cant": "All lists and permutations.", "anchors": ["src/generator/stats.go: GenerateCombinedStats"]}
{"id": "C44", "title": "Escaped image paths are decoded to the original", "statement": "Percent-decoding the image path written into the HTML yields exactly the path of the image file.", "quantifier": "for every path", "why_tests_cant": "Round trip over all byte strings.", "anchors": ["src/generator/html.go: escapePathComponents"]}
{"id": "C45", "title": "The e-book is generated from the articles in order with the configured options", "statement": "The command line for pandoc contains each article file exactly once, in the order of the project, and each configured option exactly when it is set.", "quantifier": "for every list of files and every configuration", "why_tests_cant": "Product of all options.", "anchors": ["src/generator/epub.go: GenerateEpub, generateEpubWithPandoc"]}
{"id": "C46", "title": "External commands get the right arguments", "statement": "The command line configured for image conversion is called with the input and output path as single, unchanged arguments.", "quantifier": "for every template and every path", "why_tests_cant": "Paths with blanks or placeholder texts are not in the tests.", "anchors": ["src/image/image.go", "src/util/cmd.go: ExecuteCommandWithArgs"]}
{"id": "C47", "title": "Text without markup passes unchanged", "statement": "Plain text without wiki syntax appears unchanged in the generated HTML.", "quantifier": "for every text without special characters", "why_tests_cant": "All plain texts through the whole parser and generator.", "anchors": ["src/parser/tokenizer.go: tokenizeContent, tokenizeInline", "src/generator/html.go: expand"]}
{"id": "C48", "title": "Paths on the command line are relative to the start folder", "statement": "A relative path given on the command line names the file relative to the folder in which the program was started, for every command.", "quantifier": "for every invocation, every path option and every path", "why_tests_cant": "Depends on the combination of command, project folder, start folder and path; the tests never change the folder.", "anchors": ["src/main.go: generateProjectEbook, initialize", "src/config/config.go: MergeIntoCurrentConfig", "src/util/files.go: ToAbsolutePath"]}
{"id": "C49", "title": "Requests name exactly what is asked for", "statement": "Whatever characters a title, a template or a formula contains, the request goes to the intended host and the decoded request names exactly this title (with underscores for spaces), template text or formula, together with the documented API parameters.", "quantifier": "for every title, template text, formula and host name without slash and question mark, and for every answer of the server", "why_tests_cant": "Needs every byte string (ampersands, percent signs, plus signs, umlauts); tests use a few plain titles.", "anchors": ["src/wikipedia/wikipedia.go: DownloadArticle, EvaluateTemplate, getMathResource"]}
{"id": "C50", "title": "A formula is sent to the server only once", "statement": "The id that the server delivers for a formula is remembered: while the entry is not outdated, rendering the formula again uses this id without asking the server. Without an id from the server rendering fails and nothing is remembered.", "quantifier": "for every formula, every server behaviour, every state of the cache and every time", "why_tests_cant": "A statement about histories of requests, cache content and time.", "anchors": ["src/wikipedia/wikipedia.go: getMathResource, RenderMath"]}
{"id": "C51", "title": "No answer of a server crashes the program", "statement": "Whatever a server answers, downloading articles and images, evaluating templates and rendering formulas end with a result or an error, never with a crash.", "quantifier": "for every sequence of answers, every fault of the file system and every cache content", "why_tests_cant": "Ranges over all answers of a foreign server.", "anchors": ["src/wikipedia/wikipedia.go: downloadImage, DownloadArticle, EvaluateTemplate, RenderMath", "src/http/http.go: DownloadAndCache"]}
{"id": "C52", "title": "Converted pictures belong to the downloaded picture", "statement": "After a picture was downloaded, the converted picture (PNG) used in the book was made from this download.", "quantifier": "for every picture, every conversion and every earlier content of the cache", "why_tests_cant": "Depends on the history of the cache (outdated entries, older converted files).", "anchors": ["src/wikipedia/wikipedia.go: postProcessImage"]}
{"id": "C53", "title": "Article text is never mistaken for an internal key", "statement": "Text of an article that happens to look like an internal token key or marker of the program is shown as text, and the generation of every article comes to an end.", "quantifier": "for every article text", "why_tests_cant": "The clash needs a text that nobody writes in a test; the endless recursion depends on the number the key happens to get.", "anchors": ["src/parser/pattern.go: TOKEN_REGEX", "src/generator/expand.go: expandString", "src/generator/html.go: expandMarker"]}
{"id": "C54", "title": "Paragraphs are separated exactly where the author separated them", "statement": "Text blocks that are separated by empty lines become separate paragraphs with exactly one break between them, however many empty lines there are; next to headings, images, tables and other elements no extra break is inserted; no line of text is lost or moved.", "quantifier": "for every sequence of text blocks and elements, and every number of empty lines between them", "why_tests_cant": "The loop has three state variables, the sequences of blocks and empty lines are unbounded.", "anchors": ["src/parser/formatting.go: parseParagraphs"]}
{"id": "C55", "title": "With the internal driver each article is one section with the article's title", "statement": "With the output driver 'internal' the e-book has exactly one section per article, in the order of the project, with the generated text of the article and titled with the title of the article; metadata, style, fonts and cover are the configured ones, and the program does not crash.", "quantifier": "for every list of articles with every text and title, every configuration, and every pattern of failures of the library", "why_tests_cant": "The title is cut out of the generated file with a greedy pattern, so the result depends on the whole text of the article; there are no tests for this driver.", "anchors": ["src/generator/epub.go: GenerateEpubWithGoLibrary", "src/generator/html.go: Generate"]}
{"id": "C56", "title": "The statistics of an article count what is in the article", "statement": "The statistics of an article count every link, image, formula and reference of the article, the links to each other article, and the characters and words of all texts that a reader sees, on all levels of nesting (a link in the caption of an image in a table counts as well); the reading time is the number of words divided by the reading speed of the language.", "quantifier": "for every article, every nesting of tokens and every language", "why_tests_cant": "Tokens nest without bound and each kind of token has its own way to be counted; tests contain a few tokens of nesting depth one.", "anchors": ["src/generator/stats.go: StatsGenerator.Generate, expand* methods", "src/generator/expand.go: expandString"]}
{"id": "C57", "title": "Every element of an article becomes the corresponding, properly nested HTML element", "statement": "In the generated HTML file a heading of level n is an hn element, a list is a list element of its kind with one item per entry and its sub lists within the items, a table has its rows and cells with their kind and attributes, an image has its file, size and caption, a link its address, a footnote its number; the title of the article is the first heading; and every tag that is opened is closed in the right order.", "quantifier": "for every text, every token map and every nesting of elements", "why_tests_cant": "Elements nest in each other without bound, and the HTML is put together from text templates without any check; tests compare the HTML of a few single elements.", "anchors": ["src/generator/html.go: Generate, expand* methods, templates", "src/generator/expand.go: expandToken, expandString"]}
{"id": "C58", "title": "Every image that the book shows has been downloaded", "statement": "Whatever the wikitext of an article is, each image that appears in its HTML file (as a figure, within a text, in a caption, in a gallery or image map, in a cell of a table, …) belongs to the images that are downloaded for this article; and after the download has succeeded, the address of the image in the HTML is the path of an existing file in the cache directory: the converted file if the configuration asks for a conversion.", "quantifier": "for every wikitext, set of templates and configuration, every state of the cache and every sequence of answers of the servers", "why_tests_cant": "The list of images is a side effect of an early pass, the HTML is made by another package from a token map that a later pass fills; only a relation that holds for all articles and all states of the cache ensures that the two always agree.", "anchors": ["src/parser/image.go: escapeImages, tokenizeImage, parseGalleries, parseImageMaps", "src/wikipedia/wikipedia.go: DownloadImages, downloadImageUsingAllSources", "src/generator/html.go: expandImage, escapePathComponents", "src/cache/cache.go: evict"]}
{"id": "C59", "title": "An article with headings, paragraphs, lists, tables, images, formulas, references, links and bold and italic text becomes exactly the corresponding HTML", "statement": "If an article consists of headings, paragraphs, lists of any nesting, tables, images with captions and lists of references, each with bold and italic text, with links to articles and web pages and with images, formulas and references in the lines, then its HTML file has these blocks in the same order and nothing else: each heading as heading element of its level, each list as nested list elements, each table with its rows and cells, its headings and its caption, paragraphs separated by line breaks, bold and italic text in its tags, links to articles as their text, links to web pages as link elements, images with their sizes, framed images as figures with their captions, formulas as the pictures that the renderer makes of them, references as their numbers, and lists of references as the numbers and texts of the references before them, in the order of the numbers; empty lines between the blocks and at the end make no difference but for the distance of paragraphs. Nothing of the text is lost, moved or joined on the way through cleaning, templates, tokenizer and generator.", "quantifier": "for every number, order and nesting of blocks, every text without other markup, every title, style file and configuration", "why_tests_cant": "Over a dozen passes rewrite the same string one after another, and each one sees placeholders made by the earlier ones; tests check single passes on short inputs, while errors come from combinations (a link in italic text in a list item behind a heading).", "anchors": ["src/parser/tokenizer.go: Tokenize, tokenizeContent", "src/parser/cleaner.go: clean", "src/parser/formatting.go: parseBoldAndItalic, parseParagraphs", "src/parser/heading.go", "src/parser/list.go", "src/parser/table.go", "src/parser/link.go", "src/parser/image.go: parseImages", "src/parser/reference.go: parseReferences", "src/generator/html.go: Generate, expand*", "src/generator/expand.go: expandString"]}
{"id": "C60", "title": "Images, galleries and image maps are recognised with their file, size and caption", "statement": "Each image `[[File:name|options|caption]]` of a text becomes, at its place, an image that shows the named file with the given size and, if it has a frame, with the given caption; the file is downloaded, options that the configuration ignores have no effect, and images of ignored file types disappear without a trace. The lines of a gallery become framed images with their captions, an image map becomes its image, and the text around images, galleries and image maps is unchanged. Images are never taken for links to articles.", "quantifier": "for every number of images, galleries and image maps, every text around them, every sequence of options and every configuration", "why_tests_cant": "The meaning of an option depends on the other options and their order, on the configuration and on whether it is the last one; tests have a few fixed combinations with one or two images in a text.", "anchors": ["src/parser/image.go: escapeImages, parseGalleries, parseImageMaps, parseImages", "src/parser/pattern.go: internalLinkStartRegex, galleryStartRegex, imagemapStartRegex, hasNonInlineParameterRegex", "src/parser/link.go: parseLink"]}
{"id": "C61", "title": "Reading an article comes to an end", "statement": "Cleaning and parsing the wikitext of an article come to an end for every text, however broken its markup is: unclosed links, tables, references, lists, emphasis or templates, in any nesting, never make the parser loop or call itself for ever.", "quantifier": "for every text, every state of the tokenizer and every configuration", "why_tests_cant": "The tokenizer repeats its passes until the text does not change any more, and passes call the tokenizer on parts of the text; only inputs that somebody thought of are tested, and a test cannot show that no other input makes it run for ever.", "anchors": ["src/parser/tokenizer.go: Tokenize, tokenizeContent", "src/parser/cleaner.go: clean", "src/parser/hacks.go: hackGermanRailwayTemplates", "src/parser/template.go: replaceTemplateByPlaceholders", "src/parser/table.go", "src/parser/list.go", "src/parser/link.go", "src/parser/image.go", "src/parser/reference.go"]}
{"id": "C62", "title": "What the parser has read becomes a page", "statement": "If the parser reads an article without reporting an error or crashing, then the generator turns the result into a page: every token it refers to exists, nothing crashes, and the generator comes to an end, however broken the markup of the article is (unclosed tables in lists in references in headings, and so on).", "quantifier": "for every text, every configuration and every state of the services involved in which formulas can be rendered", "why_tests_cant": "The parser replaces markup by keys and cuts, joins and searches texts that contain such keys; a test shows for single combinations of broken markup that no key is torn, not for all nestings.", "anchors": ["src/parser/tokenizer.go: tokenizeContent, getTokenKey", "src/parser/*.go: all passes", "src/generator/expand.go: expand, expandString", "src/generator/html.go: expandHandler"]}
{"id": "C63", "title": "Formulas are rendered as they are written", "statement": "For each formula of an article, the renderer gets exactly what is written between the math tags, whatever the attributes of the tag are, and the picture of the formula appears at its place in the text.", "quantifier": "for every formula, all attributes and every text around it", "why_tests_cant": "Formulas are parsed as one of the last steps, after lists, links, tables, emphasis and headings, and each of these steps searches for characters that are usual in formulas (apostrophes, brackets, asterisks, underscores, equals signs, braces); tests use a few harmless formulas.", "anchors": ["src/parser/math.go: parseMath", "src/parser/tokenizer.go: tokenizeContent", "src/generator/html.go: expandMath"]}
{"id": "C64", "title": "SVG files with a relative size get the size of their view box", "statement": "With the option for it, an SVG file whose width or height is relative gets the width and height of its viewBox as absolute size; nothing else in the file changes, and a file with an absolute size, or without a viewBox, stays as it is.", "quantifier": "for every SVG file with any attributes in any order, any separators within the viewBox and any content", "why_tests_cant": "The file is edited as text by replacing the first occurrence of a search text; tests use files with the four attributes in one order, whereas the statement is about all attributes, orders and contents.", "anchors": ["src/image/svg.go: MakeSvgSizeAbsolute, replaceRelativeSizeByViewboxSize, parseSimpleSvgAttributes", "src/wikipedia/wikipedia.go: downloadImage"]}
{"id": "C65", "title": "The output is where the user wants it", "statement": "The book or the statistics are written to the path given on the command line (relative to the folder where the program is started), for projects otherwise to the one in the project file (relative to the folder of the project file), otherwise to a default name. If the path is a folder, the default name within it is used. Missing folders are created; nothing else on the disk is created, changed or removed for it.", "quantifier": "for all commands, types of output, paths (relative, absolute, with dots, with a slash at the end), working directories and states of the disk", "why_tests_cant": "The function depends on the disk, the working directory and global configuration and is not covered by unit tests; combinations of path, type of output and existing files are unbounded.", "anchors": ["src/main.go: ensurePathsAndClearTempDir, initialize, generateProjectEbook, generateArticleEbook, generateStandaloneEbook", "src/util/files.go: ToAbsolutePath"]}
{"id": "C66", "title": "The text report names the right numbers, articles and links", "statement": "The statistics in text form contain the number of characters and internal links of the whole book, every article of the book exactly once, the number of linked articles that are not part of the book, and the twenty of them with most links (or all if there are fewer) in descending order with the number of links to each; no article that is left out has more links than one in the list.", "quantifier": "for all books, all statistics of their articles, and all orders in which the Go runtime visits maps and sorts equal elements", "why_tests_cant": "The report is built from maps with random order and unstable sorting; a test sees one order for one small book.", "anchors": ["src/generator/stats.go: generateTxtStatsContent, GenerateCombinedStats"]}
{"id": "C67", "title": "The book contains the pages of all articles", "statement": "When the articles of a project have been processed, the book is generated from one file per article, in the order of the project, and each file then contains the whole page of its article, that is the HTML of the wikitext with the title of the article; this is what pandoc or the EPUB library gets.", "quantifier": "for every list of different articles, every number of worker threads and every interleaving of their steps, every state of the cache at the beginning, every failing file operation, and whatever else is cached meanwhile (articles, images, formulas, templates)", "why_tests_cant": "The statement is about the interplay of threads, cache, parser and generator over a whole run; tests check them one by one, with one thread and one article, and no test generates a book of more articles than fit into the cache.", "anchors": ["src/main.go: generateProjectEbook, generateBookFromArticles, processArticle, shouldRecreateHtml", "src/generator/html.go: Generate, write", "src/cache/cache.go: CacheToFile, deleteFilesFromCacheIfNeeded"]}
{"id": "C68", "title": "What is not shown leaves no trace in the article", "statement": "Comments, links that are to be removed (categories, links to other languages), ignored templates, the switch __NOTOC__, spaces at the beginning and end of lines, list entries without text and sections without text may be put anywhere into the wikitext of an article: the HTML is the same as without them, namely the one the rest of the article stands for.", "quantifier": "for every article of the grammar of C59, every number of hidden parts at every place of it (between lines, within lines and within words), with any nested content (links in ignored templates, templates in removed links), and every configuration of prefixes and ignored templates", "why_tests_cant": "The removal happens in five successive passes over the text, each of which sees the result of the one before and could disturb the structure of lines, lists or headings; tests run single passes on short texts, never the whole way from wikitext with hidden parts to HTML.", "anchors": ["src/parser/cleaner.go: clean, removeComments, removeUnwantedInternalLinks, handleUnwantedAndTrailingTemplates, removeUnwantedWikitext, removeEmptyListEntries, removeEmptySections", "src/parser/parser.go: Parse", "src/generator/html.go: Generate"]}
{"id": "C69", "title": "Templates in articles are replaced by what the wiki answers", "statement": "An article with templates, also nested ones, becomes the HTML of the article in which every template has been replaced by the answer of the wiki; comments and removed links in the article or in the answers, ignored templates, the switch __NOTOC__, spaces around lines, empty list entries and empty sections leave no trace, and trailing templates appear at the end. If the wiki has no answer for one of the templates, there is an error instead of a page in which something is missing.", "quantifier": "for every article with any number and nesting of templates, all answers of the wiki that make it an article of the grammar of C59 (an answer may contain several blocks, parts of lines, headings, lists, tables, hidden parts), every order in which the Go runtime visits maps, and every configuration of prefixes, ignored and trailing templates", "why_tests_cant": "Cleaning, evaluation with placeholders, substitution in random order, the second cleaning and the parser have to fit together; unit tests mock the wiki with one answer for one template and do not look at the HTML.", "anchors": ["src/parser/tokenizer.go: Tokenize", "src/parser/template.go: evaluateTemplates, replaceTemplateByPlaceholders", "src/parser/cleaner.go: clean, handleUnwantedAndTrailingTemplates", "src/generator/html.go: Generate"]}
{"id": "C70", "title": "Image files are asked for where the wiki stores them", "statement": "The file of an image is asked for at the image server at the place where the wiki of the image's page stores it: in the folder of this wiki (its subdomain), in the folders for the first one and the first two digits of the checksum of the name, under exactly the name the page has after redirects, with underscores for spaces, whatever characters it contains; nothing else is asked for.", "quantifier": "for every name of an image, every answer of the wiki (redirects included), every host and every behaviour of the servers and the cache", "why_tests_cant": "The address is put together from the name after redirects, its checksum and a part of the host name; every byte of the name has to survive the escaping, and tests use a few plain names and one host.", "anchors": ["src/wikipedia/wikipedia.go: downloadImage"]}
{"id": "C71", "title": "The picture of a formula shows this formula, in its size", "statement": "When a formula is shown as a picture, the address in the HTML means a file that exists in the cache. It is the picture of the id that the mathematics server gave to exactly this formula (now or earlier): the SVG file the server delivered for this id, or what was made from it as configured (the PNG file that the server delivers for the same id, or the output of the configured program started with this SVG file); the size and the alignment are those of the SVG file.", "quantifier": "for every formula, every configuration of the conversion, every content of the cache, all answers of the server and all failures of file operations", "why_tests_cant": "Three requests and up to three cache entries belong to one formula, with the eviction of entries and failures in between; a test checks one order of events with a mocked server and cannot exclude that a picture belongs to another id or is missing.", "anchors": ["src/wikipedia/wikipedia.go: RenderMath, getMathResource", "src/generator/html.go: expandMath", "src/image/svg.go: ReadSimpleAvgAttributes", "src/cache/cache.go: GetPathRelativeToCache"]}
{"id": "C72", "title": "The statistics file is valid JSON with the sums over all articles, whatever the articles are called", "statement": "The statistics file of a book (output type stats-json) is a JSON text whose numbers are exactly the sums of what was counted in the articles, and whose maps have each linked name once with its number of links, those out of the book, and ten most frequent ones of these. The numbers and names survive the way through the intermediate JSON files of the articles: what is read back from a file is what was counted, for names with quotation marks, backslashes, HTML characters, control characters and any Unicode characters. The same statistics always give the same file.", "quantifier": "for all numbers of articles, all names that are valid UTF-8, all counts, and all orders in which maps are visited", "why_tests_cant": "Names come from Wikipedia and may contain any character; escaping and reading them back has to work for each of them, and the sums go through two files per article. Tests use a handful of ASCII names.", "anchors": ["src/generator/stats.go: Generate, GenerateCombinedStats, generateJsonStatsContent"]}
{"id": "C73", "title": "The file of an image is the one the server sent, and only sizes of SVG files are changed", "statement": "When the download of an image succeeds, the file under the image's name in the cache is the one that was there before, or exactly the complete body that the image server sent in answer to the request for the file which the image's page names (after redirects). It is changed only if it is an SVG file, was just downloaded and the replacement of sizes is configured: then width and height are those of the view box, if the file can be decoded. A file that was already in the cache is never changed.", "quantifier": "for every image name without colons, every answer of the wiki (redirects included), every content of the cache, all sequences of answers of the servers and all failures of file operations (a failed operation has no effect)", "why_tests_cant": "The file passes through a temporary file, the cache with its eviction and an in-place change that depends on the configuration, the file name and whether the file is fresh; tests check one configuration with a mocked server.", "anchors": ["src/wikipedia/wikipedia.go: downloadImage", "src/image/svg.go: MakeSvgSizeAbsolute", "src/http/http.go: DownloadAndCache"]}
{"id": "C74", "title": "The text of an article is the one in the answer of the wiki", "statement": "When an article or a template is asked for, the title and the wikitext the program works with are exactly the ones in the JSON answer of the wiki, for every way in which they can be written in JSON (escapes, pairs of surrogates, white space, further members in any order). An answer that is cut off or that contains no article is an error and never becomes a chapter; the texts are always valid UTF-8.", "quantifier": "for all titles and texts, all JSON texts that contain them, all places where an answer can be cut off, and all answers for the claim about UTF-8", "why_tests_cant": "There are unlimited ways to write the same text in JSON and unlimited places to cut an answer off; the tests use one short mocked answer.", "anchors": ["src/wikipedia/wikipedia.go: DownloadArticle, EvaluateTemplate"]}
{"id": "C75", "title": "Settings, articles and metadata of a book are those in the config file and the project file", "statement": "A config file or project file that is a JSON text with documented settings of the documented kinds is accepted, however it is written, and changes exactly the settings that it contains; the articles (in their order), the metadata and the output file of a book are those in the project file, and the settings it is made with are those of the command line, the project file, the config file and the defaults, in this order of precedence. A file that is cut off, or in which a setting has a value of the wrong kind (a number with a fraction or beyond 64 bits, a text instead of a list, ...), is an error.", "quantifier": "for all sets of settings, all values, all JSON texts that contain them (escapes, white space, order, further members) and all places where a file can be cut off", "why_tests_cant": "There are 34 settings in three layers with unlimited values and ways to write them; the tests read two or three example files.", "anchors": ["src/config/config.go: LoadConfig, Configuration", "src/config/project.go: LoadProject", "src/main.go: generateProjectEbook"]}
{"id": "C76", "title": "A failed request never leaves a gap or a change in a page", "statement": "Whatever an article contains: when requests for templates fail or formulas cannot be rendered, the generation of its page ends with an error, or the page is exactly the one without these failures. If the page depends on an answer in any way, then its failure is an error. In particular an article with a formula that cannot be rendered is an error and never a page without the formula.", "quantifier": "for all wikitexts (also malformed ones), all sets of failing template requests and failing formulas, all answers to the others, and all token maps, lists and tables in which they are nested", "why_tests_cant": "A failure can hit any request in any nesting (a formula in a caption in a table in a list item); the tests have one formula and one template with working or failing mock.", "anchors": ["src/parser/template.go: evaluateTemplates, replaceTemplateByPlaceholders", "src/generator/expand.go: expandToken, expandString", "src/generator/html.go: expandMath, expandTable, expandListItems"]}
{"id": "C77", "title": "A second run needs no network and gives the same page", "statement": "After the page of an article has been generated once, everything it was made of is in the cache: the article, the answers for its templates, the pages about its images, the images with the results of their conversion, the names and pictures of its formulas. Generating it again with these files, as long as they are not outdated, gives exactly the same page, sends no request, runs no command and changes the content of no file, whether or not the servers work or have changed. Likewise every page whose parts are in the cache is generated without network. (Without a limit that evicts files in between, and without the template converter for formulas, which runs its command every time.)", "quantifier": "for all wikitexts, all answers of the servers and results of commands in the first run, all initial contents of the cache, and all behaviours of servers and commands in the second run", "why_tests_cant": "Each kind of download has its own cache folder and its own name for a file; the tests check single downloads with a mock and never run one article twice.", "anchors": ["src/main.go: processArticle", "src/wikipedia/wikipedia.go: DownloadArticle, DownloadImages, EvaluateTemplate, RenderMath", "src/cache/cache.go: GetFile, CacheToFile", "src/http/http.go: DownloadAndCache"]}
{"id": "C78", "title": "The page shows the article that the wiki has sent", "statement": "When the program requests an article and makes a page, then this page is the HTML of the wikitext in the JSON answer of the wiki: the requested title as heading, then each part of the article with its HTML, each template replaced by the wikitext in the JSON answer for it, each formula by the picture that was stored for it, and each image by its file. The same holds for a run that finds everything in the cache, which always ends with this page and sends no request.", "quantifier": "for all articles, answers for templates (also nested templates), writings of the JSON answers (order of fields, white space, escape sequences, further fields), initial contents of the cache, behaviours of the other requests, and orders of iteration over maps", "why_tests_cant": "Between the answer of the wiki and the page lie the JSON decoder, the cache, cleaning, the evaluation of templates, tokenizer and generator; the tests check each of them on single inputs and with mocks for the others.", "anchors": ["src/main.go: processArticle", "src/wikipedia/wikipedia.go: DownloadArticle, EvaluateTemplate", "src/parser/tokenizer.go: Tokenize", "src/generator/html.go: Generate"]}
{"id": "C79", "title": "Files named by checksums stay in their folder and belong to one text", "statement": "The answer for a template and the id of a formula are kept in the cache in a file that lies directly in its folder and has the SHA-1 sum of the text, 40 hexadecimal digits, as name, whatever the text contains (slashes, dots, line breaks, no text at all). Two templates or formulas use the same file only if they have the same SHA-1 sum. The address of an image file can be built for each name and contains the first and the first two digits of the MD5 sum as folders.", "quantifier": "for all texts of templates and formulas, all names of images, all cache directories and folders", "why_tests_cant": "There are unlimited many texts, and the tests use mocks with fixed keys instead of sums.", "anchors": ["src/util/hash.go: Hash", "src/parser/template.go: evaluateTemplates", "src/wikipedia/wikipedia.go: getMathResource, downloadImage"]}
{"id": "C80", "title": "Failures while the e-book is made are reported", "statement": "An output type that is no e-book type and an unknown driver are errors. With the internal driver the e-book is made only if each call of the library that can fail has succeeded; an error means that a file could not be read or that a call failed; and the program does not crash when the files are pages it has generated, whatever the articles contain and whatever fails.", "quantifier": "for every configuration, list of files, content of files and pattern of failures of the library; for every article", "why_tests_cant": "The title of a section is taken from the first group of a match without a check that there is a match, so the absence of crashes depends on what the generator of pages writes for every article; there are no tests for this driver.", "anchors": ["src/generator/epub.go: GenerateEpub, GenerateEpubWithGoLibrary", "src/generator/html.go: Generate"]}
{"id": "C81", "title": "Settings that are not given have the documented default", "statement": "A setting that is given neither in the config file nor in the project file nor on the command line has the default of the table in doc/configuration.md, whatever the other settings are; the table has exactly one line for each setting of the program.", "quantifier": "for every setting, every config file, project file and command line without it, every machine", "why_tests_cant": "The defaults pass through the comparison with the default configuration, two merges and the resolution of paths, for each of 34 settings and all combinations of other settings; the tests compare the defaults with nothing.", "anchors": ["src/config/config.go: NewDefaultConfig, MergeIntoCurrentConfig, LoadConfig", "src/main.go: initialize, generateProjectEbook", "doc/configuration.md: List of config entries"]}
{"id": "C82", "title": "Missing files of the settings are reported before the wiki is asked", "statement": "The style file, the cover image and the font files of the settings are looked for before the first request: if one of them exists neither before the start nor because the program itself has made it (the output file with its folders, the folders of the cache), the program ends with an error, and nothing is requested or written to the cache. If all of them exist, the program goes on.", "quantifier": "for every configuration, every working directory, every content of the disk and every path of the output file", "why_tests_cant": "The program creates folders and files itself before it looks for the files, so whether a missing file is found missing depends on the relation of all paths of the settings; there are no tests for it.", "anchors": ["src/main.go: generateStandaloneEbook, generateBookFromArticles, ensurePathsAndClearTempDir", "src/config/config.go: AssertFilesAndPathsExists", "src/util/files.go: PathExists, AssertPathExists, EnsureDirectory"]}
{"id": "C83", "title": "The book of a single file has the text of this file", "statement": "The command for a single file makes a book with exactly one page: the name of the file without its extension as heading and as title of the book, then the HTML of the text in the file, each template replaced by the text which was in the cache or which the wiki has sent. With an output type for statistics the statistics of this text are written.", "quantifier": "for every file, configuration, content of the disk and of the cache, answers of the wiki, eviction strategy and failure of file operations", "why_tests_cant": "It depends on the names of files that exist at the time of the run, on the answers of the wiki and on what the cache has evicted; no test runs this command.", "anchors": ["src/main.go: generateStandaloneEbook, shouldRecreateHtml", "src/generator/html.go: Generate", "src/generator/epub.go: GenerateEpub"]}
{"id": "C84", "title": "Every request names the program with its version", "statement": "Every request to a wiki, also a repeated one, has exactly one user agent: the text of the setting user-agent-template with the version of the program at every place of the placeholder {{VERSION}} and all other text unchanged; requests with a form also state the type of the form.", "quantifier": "for every template, address, form and every sequence of answers of the server", "why_tests_cant": "The replacement has to hold for templates with any number of placeholders between any other braces, and the header has to be there again in every repetition after a rate limit; the tests look at no header of a request.", "anchors": ["src/http/http.go: download, PostFormEncoded, doRequest", "src/util/constants.go: VERSION", "doc/configuration.md: user-agent-template"]}
{"id": "C85", "title": "A page is an XML document with closed elements, as its first line announces", "statement": "The file of an article, which begins with an XML declaration and is put into the EPUB file, closes every element that it opens, in the right order, and writes elements without content with a slash, as XML demands.", "quantifier": "for every article, title, style file, configuration and nesting of elements", "why_tests_cant": "The tests compare single elements with expected texts; whether all tags of a page belong together depends on the whole page and on the nesting of its elements, and no test reads a page as XML.", "anchors": ["src/generator/html.go: HEADER, FOOTER, IMAGE_TEMPLATE, Generate", "src/generator/html.go: expandMarker", "src/generator/epub.go: GenerateEpubWithGoLibrary"]}
{"id": "C86", "title": "A web link on the page leads to the address in the article", "statement": "The address that a reader of the page finds in the href attribute of a web link is the address that the author has written, whatever characters it contains; the page is announced as XML, so quotation marks, ampersands and opening angle brackets have to be written as references to characters.", "quantifier": "for every article, address, link text, configuration and service", "why_tests_cant": "The tests compare the generated tag with an expected text for a few simple addresses; none of them reads the attribute as a reader of the e-book does, and the set of addresses is infinite.", "anchors": ["src/parser/link.go: parseExternalLinks, parseLink", "src/generator/html.go: HREF_TEMPLATE, expandExternalLink"]}
{"id": "C87", "title": "A requested profile or trace covers the generation of the book", "statement": "With --diagnostics-profiling or --diagnostics-trace the recording is started before the command is carried out and is still on while the book is generated, and only the requested files are created.", "quantifier": "for all options, config files and surroundings", "why_tests_cant": "The start of the program is not tested at all; whether a recording covers the generation depends on the order of the calls (including deferred ones) over the whole run, not on any returned value.", "anchors": ["src/main.go: initialize, PersistentPreRun"]}
{"id": "C88", "title": "The level of the log is one of the documented ones, otherwise the program ends at once", "statement": "Each level in the help (info, debug, trace) is accepted in any mixture of small and capital letters and is set once, before anything else is done; with any other text the program ends with an error before it reads the config file, creates a file or carries out the command.", "quantifier": "for all texts of the option, all other options and surroundings", "why_tests_cant": "There are infinitely many texts, and that nothing else has been done before the program ends is a statement about the whole run, which a test of a function that ends the process cannot observe.", "anchors": ["src/main.go: initialize, initCli"]}
{"id": "C89", "title": "A reader of the page finds the file of each image", "statement": "The path that a reader of XML finds in the src attribute of an image or of a formula, decoded as an address, is the path of the file of this image in the cache folder, whatever characters (quotation marks, ampersands, angle brackets, percent signs, letters outside of ASCII) the name of the file contains.", "quantifier": "for every article, every image that the parser finds in it, every file name, configuration and caption", "why_tests_cant": "The tests compare the tags of a few simple names with expected texts; the claim is about reading them back, for all names, through two levels of escaping.", "anchors": ["src/generator/html.go: expandInlineImage, expandImage, expandMath, filenameToImagePath, escapePathComponents, IMAGE_TEMPLATE"]}
{"id": "C90", "title": "The first heading of a page is the title of the article", "statement": "A reader of the page, which announces itself as XML, finds the title of the article as its first heading of level one, whatever characters are in the title.", "quantifier": "for every article, title, style file, configuration and service", "why_tests_cant": "The tests compare the generated text for one simple title; they do not read it as a reader of the e-book does, and titles can contain any characters.", "anchors": ["src/generator/html.go: Generate, HEADER", "src/main.go: processArticle, generateStandaloneEbook"]}
{"id": "C91", "title": "A cache folder that the settings accept can be used", "statement": "Whatever folder is given as cache folder in settings that are accepted, and whatever the files are called that are stored and searched in it, the program's own check of paths never ends the program.", "quantifier": "for every cache folder, every sequence of stored and searched files with any names and contents, every eviction strategy, every age and every failure of file operations", "why_tests_cant": "The tests replace the file system by a mock without these checks, and the check itself is tested with a few paths; whether a path is accepted depends on the cache folder, the name, the random name of the temporary file and the files that eviction finds.", "anchors": ["src/util/files.go: IsSanitized, RequireFilePathIsSanitized, OsFilesystem", "src/cache/cache.go: CacheToFile, GetFile, deleteLargestFileFromCache, deleteLruFileFromCache", "src/config/config.go: AssertValidity"]}
{"id": "C92", "title": "What an interrupted run has left is removed at the next start, and nothing else", "statement": "When the program begins its work, the folder for temporary files exists and is empty, the folders of the cache exist, and every other file and folder that was on the disk is still there. So a run that is interrupted while it stores a file leaves nothing behind that the next run keeps, except complete files.", "quantifier": "for every disk, configuration, output path, start folder, stored file and every point at which the earlier run is interrupted", "why_tests_cant": "No test starts the program on a disk with leftovers; what is removed and created depends on the cache folder, the output path and everything that is on the disk.", "anchors": ["src/main.go: ensurePathsAndClearTempDir", "src/util/files.go: EnsureDirectory, PathExists", "src/cache/cache.go: CacheToFile, GetTempPath"]}
{"id": "C93", "title": "Reported success means that the statistics are complete in the output file", "statement": "For each output path that the preparation accepts, the statistics are written if nothing fails. If the program reports success, the output file contains exactly the report on all articles and nothing of an earlier report. If it reports an error, the earlier report is still there. No other file is changed.", "quantifier": "for every output path, output type, list of articles, content of the disk and every set of failing file operations", "why_tests_cant": "The tests write to a mocked file system in which no operation fails and no path is rejected; which paths end the program and what a failure leaves behind depends on the path, the earlier content and the moment of the failure.", "anchors": ["src/generator/stats.go: GenerateCombinedStats", "src/util/files.go: Create, RequireFilePathIsSanitized", "src/main.go: ensurePathsAndClearTempDir"]}
