{"claims": [
 {"property": "C01", "status": "proved", "theorems": ["Verif.Props.C01_write_crash_atomic", "Verif.Props.C01_write_frame", "Verif.Props.C01_write_success", "Verif.Props.C01_write_failure", "Verif.Props.C01_no_temp_file_left"], "note": "all fault patterns of the file system, all crash points"},
 {"property": "C02", "status": "proved", "theorems": ["Verif.Props.C02_cache_stays_below_limit"], "note": "histories of complete, failed and killed writes and lookups"},
 {"property": "C03", "status": "proved", "theorems": ["Verif.Props.C03_eviction_terminates", "Verif.Props.C03_evictions_necessary_and_ordered", "Verif.Props.C03_nothing_evicted_when_it_fits"], "note": "'fits' counts the new file twice, as the code does (see C05)"},
 {"property": "C04", "status": "proved", "theorems": ["Verif.Props.C04_evicts_best_victim", "Verif.Props.C03_evictions_necessary_and_ordered"], "note": ""},
 {"property": "C05", "status": "partial", "theorems": ["Verif.Props.C05_small_file_is_stored_partial", "Verif.Props.C05_half_limit_file_never_stored", "Verif.Props.C05_half_limit_file_empties_cache", "Verif.Props.C05_fitting_file_not_stored"], "note": "false of the code: files of at least half of the limit are never stored; proved for smaller files"},
 {"property": "C06", "status": "proved", "theorems": ["Verif.Props.C06_no_strategy_no_loss"], "note": ""},
 {"property": "C07", "status": "proved", "theorems": ["Verif.Props.C07_lookup_missing", "Verif.Props.C07_lookup_existing", "Verif.Props.C07_usable_is_fresh"], "note": ""},
 {"property": "C08", "status": "proved", "theorems": ["Verif.Props.C08_lookup_yields_last_write"], "note": "killed writes may or may not have happened"},
 {"property": "C09", "status": "proved", "theorems": ["Verif.Props.C09_entry_is_direct_child", "Verif.Props.C09_entry_paths_injective", "Verif.Props.C09_dotdot_escapes"], "note": ""},
 {"property": "C10", "status": "proved", "theorems": ["Verif.Props.C10_sanitize_no_forbidden", "Verif.Props.C10_sanitize_decodes", "Verif.Props.C10_sanitize_injective", "Verif.Props.C10_sanitize_plain", "Verif.Props.C10_sanitize_accepted", "Verif.Props.C10_entry_path_accepted"], "note": ""},
 {"property": "C11", "status": "partial", "theorems": ["Verif.Props.C11_check_rejects_forbidden_partial", "Verif.Props.C11_stray_percent_accepted"], "note": "the percent part is false of the code, shown by a witness"},
 {"property": "C12", "status": "proved", "theorems": ["Verif.Props.C12_relative_path_round_trip"], "note": ""},
 {"property": "C13", "status": "proved", "theorems": ["Verif.Props.C13_hit", "Verif.Props.C13_miss_requests_once", "Verif.Props.C13_failed_request_leaves_no_entry", "Verif.Props.C13_success_stores_body", "Verif.Props.C13_second_download_no_request", "Verif.Props.C13_only_successful_bodies_stored"], "note": "server answers are an arbitrary script; the last theorem allows all failures of the file system"},
 {"property": "C14", "status": "proved", "theorems": ["Verif.Props.C14_retry", "Verif.Props.C14_no_other_end"], "note": ""},
 {"property": "C15", "status": "partial", "theorems": ["Verif.Props.C15_repeated_post_is_empty", "Verif.Props.C15_every_repetition_is_empty", "Verif.Props.C15_get_repetitions_identical_partial"], "note": "false of the code for POST: repeated requests have an empty body; proved for GET"},
 {"property": "C16", "status": "proved", "theorems": ["Verif.Props.C16_first_delivering_host_wins", "Verif.Props.C16_error_if_no_host_delivers", "Verif.Props.C16_success_only_by_delivery", "Verif.Props.C16_requests_of_one_host", "Verif.Props.C16_no_later_host_contacted", "Verif.Props.C16_no_host_no_error"], "note": "for non-empty lists of hosts"},
 {"property": "C17", "status": "partial", "theorems": ["Verif.Props.C17_image_exists_at_html_path_partial", "Verif.Props.C17_fails_for_colon"], "note": "for names without colon and space; false for names with a colon (witness)"},
 {"property": "C18", "status": "partial", "theorems": ["Verif.Props.C18_article_from_asked_host_partial", "Verif.Props.C18_article_of_other_wiki"], "note": "false of the code: the cache key has no host; proved for articles that are not in the cache"},
 {"property": "C19", "status": "proved", "theorems": ["Verif.Props.C19_terminates", "Verif.Props.C19_never_stuck", "Verif.Props.C19_files_in_article_order", "Verif.Props.C19_fails_only_by_article"], "note": "small-step model, all interleavings"},
 {"property": "C20", "status": "partial", "theorems": ["Verif.Props.C20_every_article_has_file_partial", "Verif.Props.C20_repeated_article_has_no_file", "Verif.Props.C20_present_html_is_dropped"], "note": "false of the code for repeated articles and for present HTML files; proved otherwise"},
 {"property": "C21", "status": "partial", "theorems": ["Verif.Props.C21_linearizable", "Verif.Props.C21_readers_see_complete_files", "Verif.Props.C21_returned_file_stays_partial", "Verif.Props.C21_returned_file_can_vanish"], "note": "linearizability and completeness of files proved; that a returned file can be read is false with an eviction strategy, proved without"},
 {"property": "C22", "status": "partial", "theorems": ["Verif.Props.C22_int_option_partial", "Verif.Props.C22_bool_option_partial", "Verif.Props.C22_text_option_partial", "Verif.Props.C22_pandoc_executable_partial", "Verif.Props.C22_path_option_partial", "Verif.Props.C22_list_option_partial", "Verif.Props.C22_font_files_partial", "Verif.Props.C22_default_value_does_not_override"], "note": "false of the code: a value equal to the default does not override a lower layer; proved for all other values, for every option"},
 {"property": "C23", "status": "partial", "theorems": ["Verif.Props.C23_check_is_documentation", "Verif.Props.C23_only_documented_configurations", "Verif.Props.C23_documented_configuration_accepted_partial", "Verif.Props.C23_intermediate_configuration_is_rejected"], "note": "the check accepts exactly the documented configurations and nothing else is used; a documented combination spread over several layers can be rejected"},
 {"property": "C24", "status": "partial", "theorems": ["Verif.Props.C24_equal_iff_permutation_partial", "Verif.Props.C24_permutations_are_equal", "Verif.Props.C24_difference_is_seen", "Verif.Props.C24_duplicates_are_confused"], "note": "false of the code for lists with repeated elements"},
 {"property": "C25", "status": "partial", "theorems": ["Verif.Props.C25_paths_relative_to_config_file_partial", "Verif.Props.C25_resolving_twice", "Verif.Props.C25_absolute_paths_stay", "Verif.Props.C25_absolute_font_file_moves"], "note": "false of the code for absolute font files; proved for all other paths"},
 {"property": "C26", "status": "proved", "theorems": ["Verif.Props.C26_close_token", "Verif.Props.C26_close_token_ignore_case", "Verif.Props.C26_equal_tokens", "Verif.Props.C26_every_text_can_be_read", "Verif.Props.C26_position"], "note": ""},
 {"property": "C27", "status": "proved", "theorems": ["Verif.Props.C27_no_token_is_replaced", "Verif.Props.C27_earlier_tokens_are_kept"], "note": "for every wikitext, configuration and number of steps of the whole tokenizer"},
 {"property": "C28", "status": "partial", "theorems": ["Verif.Props.C28_tokens_are_replaced_in_place_partial", "Verif.Props.C28_missing_token_is_reported", "Verif.Props.C28_no_text_is_lost_partial", "Verif.Props.C28_text_of_unknown_links_is_lost"], "note": "for all texts and token maps, any nesting, except for texts with doubled dollar signs (see C29); false of the code for links with an unknown protocol, whose text is lost"},
 {"property": "C29", "status": "partial", "theorems": ["Verif.Props.C29_single_dollars_are_kept_partial", "Verif.Props.C29_text_is_kept", "Verif.Props.C29_double_dollar_fails", "Verif.Props.C29_dollar_before_token_fails"], "note": "false of the code for doubled dollar signs and for a dollar sign directly before an element; proved for all other texts"},
 {"property": "C30", "status": "proved", "theorems": ["Verif.Props.C30_formatting_is_well_formed", "Verif.Props.C30_text_is_shown_as_written", "Verif.Props.C30_unclosed_italic_disables_the_rest"], "note": "for every text; for texts with runs of 2, 3 and 5 apostrophes in which all sections are closed, also the style of every character; text behind a section that is not closed stays as it is"},
 {"property": "C31", "status": "partial", "theorems": ["Verif.Props.C31_comments_removed_partial", "Verif.Props.C31_own_line_partial", "Verif.Props.C31_joins_lines", "Verif.Props.C31_short_comment"], "note": "false of the code for a comment at the beginning of a line with text after it and for <!-->; proved otherwise"},
 {"property": "C32", "status": "proved", "theorems": ["Verif.Props.C32_only_empty_entries", "Verif.Props.C32_idempotent"], "note": ""},
 {"property": "C33", "status": "partial", "theorems": ["Verif.Props.C33_text_survives", "Verif.Props.C33_only_empty_sections_removed", "Verif.Props.C33_bold_last_line_survives", "Verif.Props.C33_heading_with_text_survives", "Verif.Props.C33_empty_section_removed_partial", "Verif.Props.C33_applies_after_list_cleaning", "Verif.Props.C33_nested_empty_sections", "Verif.Props.C33_bold_sentence_removed"], "note": "text and headings with text survive for all inputs; false of the code: sections with only empty subsections stay, lines that begin and end in bold count as headings and can be removed"},
 {"property": "C34", "status": "partial", "theorems": ["Verif.Props.C34_headings_keep_level_and_text_partial", "Verif.Props.C34_headings_are_parsed", "Verif.Props.C34_headings_of_the_tokenizer_partial", "Verif.Props.C34_inner_marker_is_lost"], "note": "false of the code for a heading whose text contains its own marker; proved for all other headings (levels 1 to 7) and lines"},
 {"property": "C35", "status": "partial", "theorems": ["Verif.Props.C35_lists_keep_their_structure_partial", "Verif.Props.C35_token_is_the_tree", "Verif.Props.C35_text_of_item_becomes_a_list"], "note": "proved for all nested lists of any depth and width, all four kinds; false of the code for items whose text begins with a list character behind a space: they become a list"},
 {"property": "C36", "status": "partial", "theorems": ["Verif.Props.C36_tables_keep_their_structure_partial", "Verif.Props.C36_tokens_have_the_same_cells_partial", "Verif.Props.C36_closed_tables_do_not_crash_partial", "Verif.Props.C36_negative_number_is_lost", "Verif.Props.C36_heading_with_two_lines_becomes_data", "Verif.Props.C36_heading_behind_bars_becomes_data", "Verif.Props.C36_alignment_without_semicolon_is_lost", "Verif.Props.C36_text_behind_second_bar_is_lost", "Verif.Props.C36_indented_end_crashes"], "note": "proved for all tables of any size with captions, attributes, cells over several lines and tables nested to any depth; false of the code for the tables of the counterexamples: negative numbers behind a separator, headings with two lines or separated by bars, alignments without a semicolon, cells with two bars, an indented end of the table"},
 {"property": "C37", "status": "partial", "theorems": ["Verif.Props.C37_references_become_markers_and_lists_partial", "Verif.Props.C37_same_number_iff_same_reference", "Verif.Props.C37_numbers_follow_the_first_mention", "Verif.Props.C37_numbers_are_consecutive", "Verif.Props.C37_entries_have_the_number_of_their_reference", "Verif.Props.C37_entries_are_ordered", "Verif.Props.C37_defined_references_have_an_entry", "Verif.Props.C37_markers_and_entries_show_the_number", "Verif.Props.C37_groups_have_the_same_numbers", "Verif.Props.C37_undefined_reference_has_no_entry", "Verif.Props.C37_without_list_the_text_is_lost", "Verif.Props.C37_reference_directly_behind_list_start_crashes", "Verif.Props.C37_reference_behind_empty_list_crashes"], "note": "proved for all sequences of definitions, uses and lists of references with groups; numbers are consistent within each group, references of different groups may have the same number; false of the code for references without definition or list (no entry) and for a tag directly behind the start of a list or an empty list (the program crashes)"},
 {"property": "C38", "status": "partial", "theorems": ["Verif.Props.C38_content_verbatim_partial", "Verif.Props.C38_unclosed_tag_crashes", "Verif.Props.C38_comment_in_nowiki_is_removed", "Verif.Props.C38_elements_are_shown_as_written_partial", "Verif.Props.C38_brackets_in_nowiki_crash", "Verif.Props.C38_templates_in_nowiki_are_evaluated"], "note": "false of the code for unclosed tags (crash), opening brackets of links within nowiki (crash), and comments and templates within nowiki; the parsing step is proved for all texts with closed tags, and from the wikitext to the page for paragraphs of text with any number of elements; tags within nowiki are not escaped (C57)"},
 {"property": "C39", "status": "partial", "theorems": ["Verif.Props.C39_templates_are_evaluated_inside_out_partial", "Verif.Props.C39_results_are_complete", "Verif.Props.C39_placeholder_in_text_never_ends", "Verif.Props.C39_unterminated_template_fails", "Verif.Props.C39_failed_template_is_an_error", "Verif.Props.C39_answers_are_filled_in_partial"], "note": "proved for all texts with closed templates of any nesting and all iteration orders, if the hashes of the templates of the text differ; for all other texts (braces that do not belong to templates) the answers are filled in for the templates that were found, if the result does not spell a placeholder; false of the code for a text that contains the beginning of a placeholder (the program never ends); an unterminated template makes the whole article fail"},
 {"property": "C40", "status": "partial", "theorems": ["Verif.Props.C40_templates_removed_and_moved_partial", "Verif.Props.C40_rest_unchanged", "Verif.Props.C40_prefix_is_enough", "Verif.Props.C40_arguments_are_lost"], "note": "false of the code: names that only begin with a configured name are removed, arguments of trailing templates are lost; proved otherwise for all properly nested texts"},
 {"property": "C41", "status": "partial", "theorems": ["Verif.Props.C41_unwanted_links_removed_partial", "Verif.Props.C41_text_without_links", "Verif.Props.C41_colon_in_label", "Verif.Props.C41_titles_with_colon_vanish", "Verif.Props.C41_unclosed_link_crashes"], "note": "false of the code for a colon in the text of a link, for links to articles with a colon in their title (they vanish with their text) and for unclosed links (crash); proved for all properly nested texts otherwise"},
 {"property": "C42", "status": "partial", "theorems": ["Verif.Props.C42_links_to_articles_partial", "Verif.Props.C42_links_to_web_pages_partial", "Verif.Props.C42_crashes_only_for_empty_links_partial", "Verif.Props.C42_empty_link_crashes", "Verif.Props.C42_bracket_is_added"], "note": "false of the code for links without name and text (crash); proved for all texts with any number of closed links; brackets that are not closed get closed"},
 {"property": "C43", "status": "proved", "theorems": ["Verif.Props.C43_statistics_are_sums", "Verif.Props.C43_links_out_of_the_book", "Verif.Props.C43_order_does_not_matter", "Verif.Props.C43_unreadable_article_is_an_error", "Verif.Props.C43_short_list_depends_on_map_order"], "note": "numbers are unbounded; the shortened list of links out of the book is not determined by the articles when links have equal counts, it depends on the order in which Go visits a map"},
 {"property": "C44", "status": "partial", "theorems": ["Verif.Props.C44_decode_escaped_path_partial", "Verif.Props.C44_fails_for_space", "Verif.Props.C44_image_path_has_no_space"], "note": "false for paths with a space; image names from the parser have none"},
 {"property": "C45", "status": "proved", "theorems": ["Verif.Props.C45_pandoc_gets_articles_and_options"], "note": "paths of articles must not begin with a hyphen, which holds for absolute paths; how pandoc reads its arguments is a specification of its own (Spec/Pandoc.lean)"},
 {"property": "C46", "status": "partial", "theorems": ["Verif.Props.C46_arguments_partial", "Verif.Props.C46_path_is_one_argument_partial", "Verif.Props.C46_resize_arguments_partial", "Verif.Props.C46_path_with_space_is_torn", "Verif.Props.C46_placeholder_in_path"], "note": "false for paths with a space or the text {OUTPUT}"},
 {"property": "C47", "status": "proved", "theorems": ["Verif.Props.C47_text_without_markup_is_unchanged"], "note": "for all texts of paragraphs whose lines have no markup (Spec/PlainText.lean says which characters are allowed where), from the wikitext to the text of the HTML file"},
 {"property": "C48", "status": "partial", "theorems": ["Verif.Props.C48_command_line_path_partial", "Verif.Props.C48_project_moves_command_line_paths"], "note": "false of the code for the command project, proved for article and standalone"},
 {"property": "C49", "status": "proved", "theorems": ["Verif.Props.C49_article_requests", "Verif.Props.C49_template_requests", "Verif.Props.C49_math_form", "Verif.Props.C49_math_request"], "note": "repetitions of the POST request are covered by C15"},
 {"property": "C50", "status": "proved", "theorems": ["Verif.Props.C50_known_formula", "Verif.Props.C50_formula_asked_once", "Verif.Props.C50_no_id_is_an_error"], "note": ""},
 {"property": "C51", "status": "partial", "theorems": ["Verif.Props.C51_article", "Verif.Props.C51_template", "Verif.Props.C51_math", "Verif.Props.C51_images_partial", "Verif.Props.C51_title_without_colon_crashes"], "note": "false of the code for images: a title without colon crashes; proved for articles, templates, formulas and for images with proper titles; strategy largest excluded (see C05)"},
 {"property": "C52", "status": "partial", "theorems": ["Verif.Props.C52_first_conversion_partial", "Verif.Props.C52_stale_conversion"], "note": "false of the code: an existing PNG is kept when the picture is downloaded again; proved for the first conversion"},
 {"property": "C53", "status": "partial", "theorems": ["Verif.Props.C53_heading_with_key_never_ends", "Verif.Props.C53_text_is_taken_as_key", "Verif.Props.C29_text_is_kept"], "note": "false of the code, with an endless recursion as witness; texts without doubled dollar signs are shown as they are"},
 {"property": "C54", "status": "proved", "theorems": ["Verif.Props.C54_paragraphs"], "note": ""},
 {"property": "C55", "status": "partial", "theorems": ["Verif.Props.C55_articles_become_sections_partial", "Verif.Props.C55_heading_of_level_one_swallows_text", "Verif.Props.C55_title_of_section_is_wrong"], "note": "false of the code for articles with a heading of the first level: the title of the section contains the text up to this heading; proved for all other articles"},
 {"property": "C56", "status": "partial", "theorems": ["Verif.Props.C56_statistics_count_what_is_in_the_article_partial", "Verif.Props.C56_reading_speed", "Verif.Props.C56_reading_speed_of_the_language_partial", "Verif.Props.C56_japanese_and_swedish_get_the_average", "Verif.Props.C56_characters_are_counted_partial", "Verif.Props.C56_nested_lists_are_not_counted"], "note": "false of the code: lists within lists and the text of nowiki sections are not counted, and articles in Japanese and Swedish get the average reading speed since the program looks for wrong language codes; proved for articles without these; words are counted within each text between tokens"},
 {"property": "C57", "status": "partial", "theorems": ["Verif.Props.C57_elements_become_html_partial", "Verif.Props.C57_html_is_well_nested", "Verif.Props.C57_document_partial", "Verif.Props.C57_tag_in_nowiki_is_not_escaped"], "note": "proved for all token maps and any nesting of elements, up to white space between tags; HTML tags within the wikitext must be closed in the same piece of text; false of the code for tags in nowiki, which are not escaped"},
 {"property": "C58", "status": "partial", "theorems": ["Verif.Props.C58_shown_images_are_requested", "Verif.Props.C58_shown_images_exist_partial", "Verif.Props.C58_image_is_evicted_by_a_later_image", "Verif.Props.C58_image_with_colon_is_lost"], "note": "the first part is proved for all articles; the existence of the files for names without colon and caches without eviction; false of the code with an eviction strategy: an image of an article can evict another one of the same article, and for names with a colon"},
 {"property": "C59", "status": "partial", "theorems": ["Verif.Props.C59_articles_become_html_partial", "Verif.Props.C59_link_paragraphs_are_joined", "Verif.Props.C59_bold_paragraph_is_lost"], "note": "proved for all such articles from the wikitext to the text of the HTML file (Spec/Document.lean says which characters are allowed where; links have no prefix because of which they are removed, see C41 and C68; HTML tags in texts other than those the parser searches for, for example <br /> and <sup>, are kept as they are, but in captions and texts of references there are none; captions of images contain text and links, texts of references text, links and web links, there are no references in headings, a list of references is not empty and is written as one tag in a line of its own, the text of a cell is in one line, the article begins with a block and may end with empty lines, but not behind a heading, the path of an image file is the one that C58 is about, and the formulas are ones that can be rendered); false of the code for lines of a paragraph that are a single link (the paragraph is joined with its neighbours) and for paragraphs that are bold as a whole (can be removed as empty sections)"},
 {"property": "C60", "status": "partial", "theorems": ["Verif.Props.C60_images_partial", "Verif.Props.C60_plain_images_partial", "Verif.Props.C60_images_are_no_links", "Verif.Props.C60_galleries", "Verif.Props.C60_gallery_images", "Verif.Props.C60_image_maps", "Verif.Props.C60_caption_like_frame_is_lost", "Verif.Props.C60_caption_like_size_is_lost", "Verif.Props.C60_option_becomes_caption", "Verif.Props.C60_gallery_caption_is_lost", "Verif.Props.C60_image_map_at_end_crashes", "Verif.Props.C60_unwanted_image_map_crashes", "Verif.Props.C60_images_need_english_prefix"], "note": "proved for all texts with images whose captions are not read as options (Spec/WikiImages.lean); false of the code for captions that begin with mini or thumb or end with px, for galleries with such words anywhere in a line, for image maps at the end of the text or with an unwanted file type (crash) and for configurations without the prefix file (no images at all)"},
 {"property": "C61", "status": "partial", "theorems": ["Verif.Props.C61_parser_ends", "Verif.Props.C61_cleaning_ends", "Verif.Props.C61_template_search_ends", "Verif.Props.C61_article_ends_partial", "Verif.Props.C61_article_without_templates_ends", "Verif.Props.C61_evaluation_of_templates_ends_partial", "Verif.Props.C61_article_with_templates_ends_partial"], "note": "tokenizer, cleaning and the search for templates end on every text, if converting the first letter to upper case creates no characters of the markup and hashes contain no braces; the whole way from the wikitext ends for all articles without braces and dollar signs, and for the others if the name of the placeholders occurs neither in the article nor in the answers (except for placeholders of the request) nor in the result and no two templates have the same hash; without that it need not end (C39); the generator is not part of this property (C53)"},
 {"property": "C62", "status": "partial", "theorems": ["Verif.Props.C62_text_becomes_page_partial", "Verif.Props.C62_article_becomes_page_partial", "Verif.Props.C62_article_without_underscores_becomes_page_partial", "Verif.Props.C62_text_behind_an_image_breaks_the_page"], "note": "proved for all texts in which no image is found and that cannot be confused with internal markers: words with an underscore (or with another character that all markers have) or a dollar sign are not parts of markers, and no word has two dollar signs in a row or one at its end; for whole articles also without templates and dollar signs. False with images: a bracket in a caption makes the parser cut the key of the token behind the image, which crashes the generator"},
 {"property": "C63", "status": "partial", "theorems": ["Verif.Props.C63_formulas_are_rendered_as_written_partial", "Verif.Props.C63_derivatives_are_taken_for_italic_text", "Verif.Props.C63_brackets_are_taken_for_links", "Verif.Props.C63_empty_tag_swallows_text"], "note": "proved from the wikitext to the page for one formula in a text (and by C59 for any number of formulas anywhere in an article) if the formula contains no line break, square bracket, tag or dollar sign and no doubled apostrophe, brace or underscore; false for doubled apostrophes (internal markers for italic text are put into the formula), doubled brackets (internal keys) and behind an empty tag"},
 {"property": "C64", "status": "partial", "theorems": ["Verif.Props.C64_size_is_the_one_of_the_view_box_partial", "Verif.Props.C64_absolute_sizes_are_replaced", "Verif.Props.C64_relative_height_stays", "Verif.Props.C64_no_view_box_no_change", "Verif.Props.C64_only_namespaces_are_removed", "Verif.Props.C64_other_attribute_is_replaced", "Verif.Props.C64_comma_with_space"], "note": "proved for all files whose width is relative and which contain no earlier text that looks like one of the attributes; false of the code for absolute sizes (they are replaced, since a negation is missing in the condition), for a relative height with an absolute width (nothing happens), for attributes such as stroke-width in front (they are replaced instead) and for a comma with a space in the viewBox; the XML decoder is a parameter"},
 {"property": "C65", "status": "partial", "theorems": ["Verif.Props.C65_article_output_is_at_the_given_path_partial", "Verif.Props.C65_article_default_output_partial", "Verif.Props.C65_project_output_is_at_the_given_path_partial", "Verif.Props.C65_no_output_below_a_file", "Verif.Props.C65_statistics_ignore_other_paths", "Verif.Props.C65_statistics_are_not_put_into_a_folder", "Verif.Props.C65_new_folder_fails_once", "Verif.Props.C65_relative_folder_becomes_file", "Verif.Props.C65_project_without_path_fails"], "note": "proved for all paths that are no absolute paths with a slash at the end of a missing folder, and, for statistics, end with json or txt; false of the code otherwise: statistics with another name (or a folder) go to ./stats.json or ./stats.txt; a missing folder with a slash at its end leads to an error in the first run (absolute) or to a file of this name (relative); a project without an output file fails. Permissions and symbolic links are not modelled"},
 {"property": "C66", "status": "proved", "theorems": ["Verif.Props.C66_report_is_right"], "note": "for all orders of maps and of elements with equal numbers; numbers are unbounded integers in the model"},
 {"property": "C67", "status": "partial", "theorems": ["Verif.Props.C67_book_has_the_pages_of_all_articles_partial", "Verif.Props.C67_pandoc_gets_the_pages_partial", "Verif.Props.C67_library_gets_the_pages_partial", "Verif.Props.C67_books_can_be_generated", "Verif.Props.C67_eviction_loses_pages"], "note": "proved for all runs without an eviction strategy in which the articles differ and HTML files of earlier runs are not used; together with C59, C45 and C55 from the wikitext to what pandoc or the EPUB library gets; false of the code with an eviction strategy: whenever the pages together reach the limit of the cache, there is a run that generates the book although the page of an article has been deleted; calls of the cache are atomic (C21)"},
 {"property": "C68", "status": "partial", "theorems": ["Verif.Props.C68_hidden_parts_leave_no_trace_partial", "Verif.Props.C31_joins_lines", "Verif.Props.C33_nested_empty_sections"], "note": "proved for all articles of the grammar of C59 with hidden parts of all kinds at all places, with these exceptions: a comment at the beginning of a line has to be followed by the end of the line (false of the code otherwise, see C31_joins_lines), brackets in front of a removed link or template are closed, sections that consist of empty subsections keep their heading (false of the code otherwise, see C33_nested_empty_sections), trailing templates are the subject of C69"},
 {"property": "C69", "status": "partial", "theorems": ["Verif.Props.C69_templates_become_their_answers_partial", "Verif.Props.C69_failed_template_is_an_error"], "note": "proved for articles whose text with the answers is in the grammar of C59 with hidden parts (C68); the article itself has no railway tables of the German Wikipedia, and the exceptions of C31, C33, C39, C40 and C41 apply (comments at the beginning of a line with text, text TEMPLATE_PLACEHOLDER_, arguments of trailing templates, colons in labels)"},
 {"property": "C70", "status": "proved", "theorems": ["Verif.Props.C70_image_requests"], "note": "the checksum is a parameter (hexadecimal digits); the page of the image is asked for as C49 says; the names of the image and of its page contain no further colon (see C58 for names with a colon)"},
 {"property": "C71", "status": "proved", "theorems": ["Verif.Props.C71_picture_of_the_formula"], "note": "the XML decoder and the checksum are parameters; a converter that reports success is assumed to have written its output file; files with references to namespaces are decoded as C64 says, the arguments of the program for paths with spaces are torn as C46 says, and the id contains no space (C44)"},
 {"property": "C72", "status": "proved", "theorems": ["Verif.Props.C72_statistics_of_the_book", "Verif.Props.C72_statistics_are_read_back", "Verif.Props.C72_statistics_or_error", "Verif.Props.C72_cut_off_files_are_errors", "Verif.Props.C72_file_of_an_article", "Verif.Props.C72_file_of_the_book", "Verif.Props.C72_same_statistics_same_file"], "note": "names are valid UTF-8 and numbers fit in 64 bits where files are read back; that the files are stored and found is the subject of C02 and C06"},
 {"property": "C73", "status": "proved", "theorems": ["Verif.Props.C73_image_file_is_the_delivered_one", "Verif.Props.C73_svg_file_has_size_of_view_box"], "note": "the XML decoder and the checksum are parameters; a failed file operation has no effect in the model (a file that is only partly overwritten when its sizes are replaced is not modelled); image names with a further colon are cut (C17), their file is the one of the shorter name"},
 {"property": "C74", "status": "partial", "theorems": ["Verif.Props.C74_article_is_the_one_of_the_answer", "Verif.Props.C74_template_is_the_one_of_the_answer", "Verif.Props.C74_cut_off_answers_are_errors_partial", "Verif.Props.C74_texts_are_valid", "Verif.Props.C74_answer_without_article_is_accepted"], "note": "false for answers without an article (last theorem): they are taken for an article without title and text; the article is not in the cache before (what is in the cache is what was stored, C01); nesting of at most 10000 levels, the limit of encoding/json; names of members that differ from the expected ones only in case are excluded from the further members, as they are taken for the expected ones"},
 {"property": "C75", "status": "proved", "theorems": ["Verif.Props.C75_config_file", "Verif.Props.C75_project_file", "Verif.Props.C75_book_of_the_files", "Verif.Props.C75_wrong_values_are_errors", "Verif.Props.C75_cut_off_files_are_errors", "Verif.Props.C75_no_book_from_broken_files"], "note": "each setting at most once in a file, and members with other names (which the program ignores, also misspelled settings) are ASCII; values that are equal to the defaults do not override, and paths and lists are resolved and compared, as C22, C24, C25 and C48 say; nesting of at most 10000 levels; reading the bytes of the file is not modelled, the options of the command line are a layer"},
 {"property": "C76", "status": "proved", "theorems": ["Verif.Props.C76_failures_give_no_other_page", "Verif.Props.C76_needed_requests_have_to_succeed", "Verif.Props.C76_failed_formula_is_an_error"], "note": "failures of templates and formulas; failures of images and of the article itself are the subject of C13 and C16; C76_failed_formula_is_an_error for formulas within the texts of C63"},
 {"property": "C77", "status": "proved", "theorems": ["Verif.Props.C77_second_run_without_requests", "Verif.Props.C77_everything_is_left_in_the_cache", "Verif.Props.C77_page_from_the_cache"], "note": "the run of one article until its page is complete (Model/ProcessArticle.lean); writing the HTML file is the subject of C67; no eviction strategy in the first run, same order of iteration over maps in both runs (the influence of the order is the subject of C39), names of images are not empty or dots"},
 {"property": "C78", "status": "partial", "theorems": ["Verif.Props.C78_page_is_made_from_what_was_given_with_any_cache_partial", "Verif.Props.C78_page_is_made_from_what_was_given_partial", "Verif.Props.C78_page_shows_what_the_wiki_sent_partial", "Verif.Props.C78_page_of_the_article_in_the_cache_partial"], "note": "articles within the texts of C69 (which contains C59 and C68). C78_page_is_made_from_what_was_given_with_any_cache_partial holds for each eviction strategy, each size of the cache, all ages and all failures of file operations, but for articles without formulas; with formulas: no eviction strategy, not the template converter, and names of images are not empty or dots. C78_page_is_made_from_what_was_given_partial speaks only about what was in the cache before the run and what the wiki has sent during the run (Spec/Exchange.lean), the older theorem about the answers that are in the cache after the run"},
 {"property": "C79", "status": "proved", "theorems": ["Verif.Props.C79_files_of_templates_and_formulas", "Verif.Props.C79_sums_are_digits", "Verif.Props.C79_sums_are_usable", "Verif.Props.C79_address_of_image_file"], "note": "that different texts have different SHA-1 sums is not claimed (there are collisions); files of images have the names of the images (C09, C58)"},
 {"property": "C80", "status": "proved", "theorems": ["Verif.Props.C80_failures_are_reported", "Verif.Props.C80_unknown_output_is_an_error", "Verif.Props.C80_pages_have_titles", "Verif.Props.C80_no_crash_for_generated_pages"], "note": "the library is given by which of its calls succeed; `NewEpub` is taken to succeed; what pandoc does is not modelled"},
 {"property": "C81", "status": "proved", "theorems": ["Verif.Props.C81_default_of_article", "Verif.Props.C81_default_of_project", "Verif.Props.C81_default_of_the_files", "Verif.Props.C81_one_default_each"], "note": "the cache folder of the user is an absolute path; the documentation gives the default of math-converter as a list with one text, the table of the specification has the text"},
 {"property": "C82", "status": "proved", "theorems": ["Verif.Props.C82_missing_files_are_reported", "Verif.Props.C82_present_files_are_accepted", "Verif.Props.C82_nothing_is_requested_without_the_files"], "note": "the cache folder, the output path and the paths of the files are absolute (C25, C48 say when they are); permissions and symbolic links are not modelled"},
 {"property": "C83", "status": "partial", "theorems": ["Verif.Props.C83_book_of_a_file_has_its_text_partial", "Verif.Props.C83_names_with_dots_are_cut", "Verif.Props.C83_earlier_page_is_used_instead", "Verif.Props.C83_no_statistics_of_a_file"], "note": "fails for names with further dots (the heading is cut at the first one), if there is a page of this name in the folder `html` of the working directory (this page becomes the book), and for statistics (always an error); the three are proved. The partial theorem holds for texts within C69 without formulas, with any cache, any eviction and any failures of file operations"},
 {"property": "C84", "status": "proved", "theorems": ["Verif.Props.C84_requests_name_the_program", "Verif.Props.C84_every_template_can_be_filled"], "note": "headers are those the code sets; what the HTTP library adds to a request is not modelled"},
 {"property": "C85", "status": "partial", "theorems": ["Verif.Props.C85_text_is_balanced_partial", "Verif.Props.C85_no_page_is_xml"], "note": "false of the code for every page: meta and link in the head are never closed; pictures and line breaks are not closed either; for the text of an article without such elements all elements are closed in the right order, through any nesting of tokens"},
 {"property": "C86", "status": "partial", "theorems": ["Verif.Props.C86_addresses_of_links_partial", "Verif.Props.C86_ampersands_are_not_escaped", "Verif.Props.C86_quotation_mark_ends_the_address"], "note": "false of the code for addresses with &, quotation marks or <, which are not escaped; from the wikitext to the page it is shown for links in paragraphs, headings, lists, tables and lists of references of all articles as in C59 that exactly the other addresses are read as they are written"},
 {"property": "C87", "status": "partial", "theorems": ["Verif.Props.C87_requested_recordings_are_started_partial", "Verif.Props.C87_recordings_end_before_the_command"], "note": "false of the code for all options: the deferred calls in initialize end both recordings before the command begins; the requested files are created and the recordings are started"},
 {"property": "C88", "status": "proved", "theorems": ["Verif.Props.C88_documented_levels_are_used", "Verif.Props.C88_unknown_levels_are_reported"], "note": "strings.ToLower is a parameter that is known for ASCII texts"},
 {"property": "C89", "status": "proved", "theorems": ["Verif.Props.C89_images_of_articles_lead_to_their_files", "Verif.Props.C89_images_lead_to_their_files", "Verif.Props.C89_formulas_lead_to_their_files"], "note": "names that consist of dots only are excluded, they are no file names; formulas: paths without spaces (their names are checksums)"},
 {"property": "C90", "status": "partial", "theorems": ["Verif.Props.C90_titles_partial", "Verif.Props.C90_ampersands_in_titles_are_not_escaped"], "note": "false of the code exactly for titles with & or <, which are not escaped; proved for all articles"},
 {"property": "C91", "status": "partial", "theorems": ["Verif.Props.C91_storing_passes_the_checks_partial", "Verif.Props.C91_searching_passes_the_checks_partial", "Verif.Props.C91_runs_pass_the_checks_partial", "Verif.Props.C91_folders_with_colons_end_the_program", "Verif.Props.C91_settings_accept_each_folder", "Verif.Props.C91_foreign_files_end_the_program"], "note": "false of the code for cache folders with a colon or another character that is not allowed on Windows: the settings are accepted and the program ends with the first file; also false if eviction finds a file of another program with such a character; proved for all other folders, on systems other than Windows; names are not empty or dots"},
 {"property": "C92", "status": "proved", "theorems": ["Verif.Props.C92_leftovers_are_removed", "Verif.Props.C92_nothing_else_is_removed", "Verif.Props.C92_folders_of_the_cache_exist", "Verif.Props.C92_interrupted_writes_leave_nothing"], "note": "for starts that succeed; the cache folder is an absolute path (C25, C48); os.RemoveAll is taken to succeed; permissions and symbolic links are not modelled"},
 {"property": "C93", "status": "partial", "theorems": ["Verif.Props.C93_success_means_complete_partial", "Verif.Props.C93_reports_are_written_partial", "Verif.Props.C93_without_report_nothing_is_written", "Verif.Props.C93_paths_with_colons_get_no_report", "Verif.Props.C93_preparation_accepts_colons", "Verif.Props.C93_failures_lose_the_earlier_report"], "note": "proved for the paths that the check accepts; false for paths with a character that is not allowed on Windows, which are accepted by the preparation and end the program when the report is written; also false that an error keeps the earlier report: the file is emptied first"}
]}
