{{grcS|ἀστήρ, ἄστρον|astēr, astron}}<span style="font-style:normal;font-weight:normal">altgriechisch</span> <span lang="grc-Grek" class="Grek" style="font-style:normal">ἀστήρ, ἄστρον</span> <templatestyles src="Latn/styles.css"></templatestyles><span class="Latn" lang="grc-Latn" style="font-weight:normal;font-style:italic">astēr, astron</span>